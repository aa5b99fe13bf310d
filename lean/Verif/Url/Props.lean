import Verif.Url.Model
import Verif.Text.Props

/-!
# C38: URL paths are normalised
-/
namespace Verif.Url

open Verif.Text (splitSpec splitSpec_append splitSpec_clean splitSpec_join splitSpec_none)

/-! ## Specification -/

/-- The segments of a path: what lies between the slashes. -/
def segs (s : Bytes) : List Bytes := (splitSpec 47 s).1 :: (splitSpec 47 s).2

/-- One segment followed from a directory given as the list of names leading to it (innermost first): "." and
the empty segment stay, ".." goes to the parent (the root is its own parent), a name descends. -/
def follow (dir : List Bytes) (seg : Bytes) : List Bytes :=
  if seg = [46, 46] then dir.tail else if seg = [46] ∨ seg = [] then dir else seg :: dir

/-- The place a path denotes, from the root. -/
def place (s : Bytes) : List Bytes := (segs s).foldl follow []

/-- The number of levels below the root while following segments; `none` when ".." leaves the root. -/
def depth : Nat → List Bytes → Option Nat
  | d, [] => some d
  | d, seg :: r =>
    if seg = [46, 46] then (if d = 0 then none else depth (d - 1) r)
    else if seg = [46] ∨ seg = [] then depth d r else depth (d + 1) r

/-- A path that never climbs above its root. -/
def staysInside (s : Bytes) : Prop := (depth 0 (segs s)).isSome

instance : DecidablePred staysInside := fun s => by unfold staysInside; infer_instance

/-- A segment that is a name. -/
def isName (seg : Bytes) : Prop := seg ≠ [] ∧ seg ≠ [46] ∧ seg ≠ [46, 46]

instance : DecidablePred isName := fun s => by unfold isName; infer_instance

/-! ## Lists -/

theorem segs_append (a b : Bytes) : segs (a ++ 47 :: b) = segs a ++ segs b := by
  induction a with
  | nil => simp [segs, splitSpec]
  | cons x a ih =>
    simp only [segs, List.cons_append] at ih ⊢
    by_cases hx : x = 47
    · subst hx
      simp only [splitSpec, if_true, List.cons_append]
      rw [ih]
    · simp only [splitSpec, if_neg hx]
      simp only [List.cons.injEq] at ih
      rw [ih.1, ih.2]

theorem segs_single {a : Bytes} (h : 47 ∉ a) : segs a = [a] := by
  simp [segs, splitSpec_none 47 a h]

theorem segs_ne (a : Bytes) : segs a ≠ [] := by simp [segs]

theorem rfindChar_none {c : UInt8} {s : Bytes} : rfindChar c s = none ↔ c ∉ s := by
  induction s with
  | nil => simp [rfindChar]
  | cons x r ih =>
    simp only [rfindChar]
    cases h : rfindChar c r with
    | none =>
      have := ih.mp h
      by_cases hx : x = c
      · simp [hx]
      · simp [hx, this, Ne.symm hx]
    | some i =>
      have : c ∈ r := Decidable.byContradiction fun hh => by rw [ih.mpr hh] at h; cases h
      simp [this]

theorem rfindChar_some {c : UInt8} {s : Bytes} {n : Nat} (h : rfindChar c s = some n) :
    ∃ a r, s = a ++ c :: r ∧ c ∉ r ∧ a.length = n := by
  induction s generalizing n with
  | nil => simp [rfindChar] at h
  | cons x r ih =>
    simp only [rfindChar] at h
    cases hr : rfindChar c r with
    | none =>
      rw [hr] at h
      simp only at h
      split at h
      next hx =>
        simp at h
        exact ⟨[], r, by simp [hx], rfindChar_none.mp hr, by simpa using h⟩
      next => cases h
    | some i =>
      rw [hr] at h
      simp at h
      obtain ⟨a, r', rfl, hc, rfl⟩ := ih hr
      exact ⟨x :: a, r', rfl, hc, by simpa using h⟩

/-- An occurrence at the position found. -/
theorem findSub_split {pat s : Bytes} {n : Nat} (h : findSub pat s = some n) :
    ∃ a b, s = a ++ pat ++ b ∧ a.length = n := by
  obtain ⟨h1, ⟨b, h2⟩, -⟩ := findSub_some h
  refine ⟨s.take n, b, ?_, ?_⟩
  · rw [List.append_assoc, h2, List.take_append_drop]
  · simp only [List.length_take]; omega

theorem findSub_none_infix {pat s : Bytes} (h : findSub pat s = none) : ¬ pat <:+: s := by
  rintro ⟨a, b, rfl⟩
  refine findSub_none h a.length (by simp only [List.length_append]; omega) ?_
  rw [List.append_assoc, List.drop_left]
  exact ⟨b, rfl⟩

theorem infix_none {pat s : Bytes} (h : ¬ pat <:+: s) : findSub pat s = none := by
  cases hf : findSub pat s with
  | none => rfl
  | some n =>
    obtain ⟨a, b, rfl, -⟩ := findSub_split hf
    exact absurd ⟨a, b, rfl⟩ h

/-- An occurrence of `c mid c` across a join at a `c` lies on one side of it. -/
theorem infix_join {c : UInt8} {mid a b : Bytes} (hm : c ∉ mid) (h : (c :: (mid ++ [c])) <:+: a ++ c :: b) :
    (c :: (mid ++ [c])) <:+: a ++ [c] ∨ (c :: (mid ++ [c])) <:+: c :: b := by
  obtain ⟨x, y, e⟩ := h
  rw [List.append_assoc] at e
  rcases List.append_eq_append_iff.mp e with ⟨t, ha, ht⟩ | ⟨t, hx, ht⟩
  · -- a = x ++ t
    rcases List.append_eq_append_iff.mp ht with ⟨t', h1, h2⟩ | ⟨t', h1, h2⟩
    · -- t = pat ++ t'
      left
      exact ⟨x, t' ++ [c], by rw [ha, h1]; simp⟩
    · cases t' with
      | nil =>
        left
        simp only [List.append_nil] at h1
        exact ⟨x, [c], by rw [ha, ← h1]⟩
      | cons d t' =>
        simp only [List.cons_append, List.cons.injEq] at h2
        obtain ⟨rfl, h2⟩ := h2
        cases t with
        | nil =>
          right
          simp only [List.nil_append] at ht
          exact ⟨[], y, by simpa using ht⟩
        | cons e' t =>
          simp only [List.cons_append, List.cons.injEq] at h1
          obtain ⟨rfl, h1⟩ := h1
          have : t' = [] := by
            rcases List.append_eq_append_iff.mp h1 with ⟨z, hz, hz'⟩ | ⟨z, hz, hz'⟩
            · cases z with
              | nil => simp at hz'; exact hz'
              | cons w z =>
                simp at hz'
            · cases z with
              | nil => simp at hz'; exact hz'
              | cons w z =>
                simp only [List.cons_append, List.cons.injEq] at hz'
                exact absurd (by rw [hz, ← hz'.1]; simp) hm
          subst this
          left
          refine ⟨x, [], ?_⟩
          rw [ha, List.append_nil, List.append_assoc, List.cons_append, ← h1]
  · right
    exact ⟨t, y, by rw [List.append_assoc]; exact ht.symm⟩

/-! ## The passes -/

theorem cutDot_step {s : Bytes} {d : Nat} (h : findSub [47, 46, 47] s = some d) : cutDot s = cutDot (eraseAt s d 2) := by
  rw [cutDot.eq_def]; split
  next h' => rw [h] at h'; cases h'
  next h' => rw [h] at h'; cases h'; rfl

theorem cutDot_done {s : Bytes} (h : findSub [47, 46, 47] s = none) : cutDot s = s := by
  rw [cutDot.eq_def]; split
  next => rfl
  next h' => rw [h] at h'; cases h'

theorem cutSlash_step {s : Bytes} {d : Nat} (h : findSub [47, 47] s = some d) : cutSlash s = cutSlash (eraseAt s d 1) := by
  rw [cutSlash.eq_def]; split
  next h' => rw [h] at h'; cases h'
  next h' => rw [h] at h'; cases h'; rfl

theorem cutSlash_done {s : Bytes} (h : findSub [47, 47] s = none) : cutSlash s = s := by
  rw [cutSlash.eq_def]; split
  next => rfl
  next h' => rw [h] at h'; cases h'

theorem cutUp_step {s : Bytes} {d : Nat} (h : findSub [47, 46, 46, 47] s = some d) : cutUp s = cutUp (cutUpAt s d) := by
  rw [cutUp.eq_def]; split
  next h' => rw [h] at h'; cases h'
  next h' => rw [h] at h'; cases h'; rfl

theorem cutUp_done {s : Bytes} (h : findSub [47, 46, 46, 47] s = none) : cutUp s = s := by
  rw [cutUp.eq_def]; split
  next => rfl
  next h' => rw [h] at h'; cases h'

/-- "/./" -/
abbrev pDot : Bytes := 47 :: ([46] ++ [47])
/-- "//" -/
abbrev pSl : Bytes := 47 :: ([] ++ [47])
/-- "/../" -/
abbrev pUp : Bytes := 47 :: ([46, 46] ++ [47])

theorem follow_up (a : Bytes) : follow (follow [] a) [46, 46] = [] := by
  unfold follow
  rw [if_pos rfl]
  split
  · rfl
  · split <;> rfl

theorem place_eq (s : Bytes) : place s = (segs s).foldl follow [] := rfl

theorem eraseAt_split (a m b : Bytes) (n k : Nat) (hn : a.length = n) (hk : m.length = k) : eraseAt (a ++ m ++ b) n k = a ++ b := by
  subst hn hk
  unfold eraseAt
  rw [List.append_assoc, List.take_left, ← List.drop_drop, List.drop_left, List.drop_left]

theorem cutDot_spec (s : Bytes) : ¬ pDot <:+: cutDot s ∧ place (cutDot s) = place s := by
  induction hn : s.length using Nat.strongRecOn generalizing s with
  | ind n ih =>
    cases h : findSub [47, 46, 47] s with
    | none => rw [cutDot_done h]; exact ⟨findSub_none_infix h, rfl⟩
    | some d =>
      rw [cutDot_step h]
      obtain ⟨h1, h2⟩ := ih _ (hn ▸ eraseAt_length h (by simp) (by omega)) (eraseAt s d 2) rfl
      refine ⟨h1, h2.trans ?_⟩
      obtain ⟨a, b, rfl, hl⟩ := findSub_split h
      rw [show a ++ [47, 46, 47] ++ b = a ++ [47, 46] ++ (47 :: b) by simp, eraseAt_split a [47, 46] (47 :: b) d 2 hl rfl]
      rw [show a ++ [47, 46] ++ (47 :: b) = a ++ 47 :: ([46] ++ 47 :: b) by simp]
      simp only [place, segs_append, segs_single (a := [46]) (by decide), List.foldl_append, List.foldl_cons, List.foldl_nil]
      simp [follow]

theorem cutSlash_spec (s : Bytes) (h0 : ¬ pDot <:+: s) : ¬ pDot <:+: cutSlash s ∧ ¬ pSl <:+: cutSlash s ∧ place (cutSlash s) = place s := by
  induction hn : s.length using Nat.strongRecOn generalizing s with
  | ind n ih =>
    cases h : findSub [47, 47] s with
    | none => rw [cutSlash_done h]; exact ⟨h0, findSub_none_infix h, rfl⟩
    | some d =>
      rw [cutSlash_step h]
      obtain ⟨a, b, rfl, hl⟩ := findSub_split h
      have e : eraseAt (a ++ [47, 47] ++ b) d 1 = a ++ 47 :: b := by
        rw [show a ++ [47, 47] ++ b = a ++ [47] ++ (47 :: b) by simp, eraseAt_split a [47] (47 :: b) d 1 hl rfl]
      obtain ⟨h1, h2, h3⟩ := ih _ (hn ▸ eraseAt_length h (by simp) (by omega)) (eraseAt (a ++ [47, 47] ++ b) d 1) (by
        rw [e]
        intro hi
        rcases infix_join (by decide) hi with hi | hi
        · exact h0 (hi.trans ⟨[], 47 :: b, by simp⟩)
        · exact h0 (hi.trans ⟨a ++ [47], [], by simp⟩)) rfl
      refine ⟨h1, h2, h3.trans ?_⟩
      rw [e]
      rw [show a ++ [47, 47] ++ b = a ++ 47 :: ([] ++ 47 :: b) by simp]
      simp only [place, segs_append, segs_single (a := []) (by decide), List.foldl_append, List.foldl_cons, List.foldl_nil]
      simp [follow]

theorem dropSlash_place (s : Bytes) : place (dropSlash s) = place s := by
  unfold dropSlash
  split
  next h =>
    cases s with
    | nil => simp at h
    | cons c r =>
      simp at h; subst h
      rw [show (47 : UInt8) :: r = [] ++ 47 :: r by rfl]
      simp only [place, segs_append, segs_single (a := []) (by decide)]
      simp [follow]
  next => rfl

theorem dropSlash_infix (s : Bytes) : dropSlash s <:+: s := by
  unfold dropSlash
  split
  · exact (List.drop_suffix 1 s).isInfix
  · exact List.infix_refl s

theorem dropSlash_head (s : Bytes) (h : ¬ pSl <:+: s) : (dropSlash s).head? ≠ some 47 := by
  unfold dropSlash
  split
  next hs =>
    cases s with
    | nil => simp at hs
    | cons c r =>
      simp at hs; subst hs
      cases r with
      | nil => simp
      | cons d r =>
        simp only [List.drop_succ_cons, List.drop_zero, List.head?_cons, ne_eq, Option.some.injEq]
        rintro rfl
        exact h ⟨[], r, by simp⟩
  next hs => exact hs

/-- No "/./", "//" or "/../". -/
def Clean (s : Bytes) : Prop := ¬ pDot <:+: s ∧ ¬ pSl <:+: s ∧ ¬ pUp <:+: s

theorem Clean.infix {s t : Bytes} (h : Clean s) (ht : t <:+: s) : Clean t :=
  ⟨fun hi => h.1 (hi.trans ht), fun hi => h.2.1 (hi.trans ht), fun hi => h.2.2 (hi.trans ht)⟩

/-- What one "/../" step does: either everything up to the match goes, or exactly the name before it. -/
theorem cutUpAt_spec {s : Bytes} {d : Nat} (h : findSub [47, 46, 46, 47] s = some d) (h1 : ¬ pDot <:+: s) (h2 : ¬ pSl <:+: s)
    (h3 : s.head? ≠ some 47) :
    ¬ pDot <:+: cutUpAt s d ∧ ¬ pSl <:+: cutUpAt s d ∧ (cutUpAt s d).head? ≠ some 47 ∧ place (cutUpAt s d) = place s := by
  obtain ⟨hlen, -, hmin⟩ := findSub_some h
  obtain ⟨a, b, rfl, rfl⟩ := findSub_split h
  have hb : b.head? ≠ some 47 := by
    intro hb
    cases b with
    | nil => simp at hb
    | cons c b => simp at hb; subst hb; exact h2 ⟨a ++ [47, 46, 46], b, by simp⟩
  have hbi : b <:+: a ++ [47, 46, 46, 47] ++ b := ⟨a ++ [47, 46, 46, 47], [], by simp⟩
  unfold cutUpAt
  have et : (a ++ [47, 46, 46, 47] ++ b).take a.length = a := by rw [List.append_assoc]; exact List.take_left
  rw [et]
  cases hr : rfindChar 47 a with
  | none =>
    show ¬ pDot <:+: eraseAt _ _ _ ∧ ¬ pSl <:+: eraseAt _ _ _ ∧ (eraseAt _ _ _).head? ≠ some 47 ∧ place (eraseAt _ _ _) = _
    have e : eraseAt (a ++ [47, 46, 46, 47] ++ b) 0 (a.length + 4) = b := by
      have := eraseAt_split [] (a ++ [47, 46, 46, 47]) b 0 (a.length + 4) rfl (by simp)
      simpa using this
    rw [e]
    refine ⟨fun hi => h1 (hi.trans hbi), fun hi => h2 (hi.trans hbi), hb, ?_⟩
    rw [show a ++ [47, 46, 46, 47] ++ b = a ++ 47 :: ([46, 46] ++ 47 :: b) by simp]
    have ha := rfindChar_none.mp hr
    simp only [place, segs_append, segs_single (a := [46, 46]) (by decide), segs_single ha, List.foldl_append, List.foldl_cons, List.foldl_nil]
    rw [follow_up]
  | some p =>
    simp only
    obtain ⟨q, seg, rfl, hseg, rfl⟩ := rfindChar_some hr
    rw [if_neg (by simp)]
    have e : eraseAt (q ++ 47 :: seg ++ [47, 46, 46, 47] ++ b) (q.length + 1) ((q ++ 47 :: seg).length - q.length + 3) = q ++ 47 :: b := by
      have := eraseAt_split (q ++ [47]) (seg ++ [47, 46, 46, 47]) b (q.length + 1) ((q ++ 47 :: seg).length - q.length + 3) (by simp) (by simp only [List.length_append, List.length_cons, List.length_nil]; omega)
      simpa using this
    rw [e]
    have hq : q ≠ [] := by rintro rfl; simp at h3
    have i1 : q ++ [47] <:+: q ++ 47 :: seg ++ [47, 46, 46, 47] ++ b := ⟨[], seg ++ [47, 46, 46, 47] ++ b, by simp⟩
    have i2 : 47 :: b <:+: q ++ 47 :: seg ++ [47, 46, 46, 47] ++ b := ⟨q ++ 47 :: seg ++ [47, 46, 46], [], by simp⟩
    refine ⟨?_, ?_, ?_, ?_⟩
    · intro hi
      rcases infix_join (by decide) hi with hi | hi
      · exact h1 (hi.trans i1)
      · exact h1 (hi.trans i2)
    · intro hi
      rcases infix_join (by decide) hi with hi | hi
      · exact h2 (hi.trans i1)
      · exact h2 (hi.trans i2)
    · cases q with
      | nil => exact absurd rfl hq
      | cons c q => simpa using h3
    · have n1 : seg ≠ [] := by
        rintro rfl
        exact h2 ⟨q, [46, 46, 47] ++ b, by simp⟩
      have n2 : seg ≠ [46] := by
        rintro rfl
        exact h1 ⟨q, [46, 46, 47] ++ b, by simp⟩
      have n3 : seg ≠ [46, 46] := by
        rintro rfl
        refine hmin q.length (by simp) ?_
        rw [show q ++ 47 :: [46, 46] ++ [47, 46, 46, 47] ++ b = q ++ (47 :: [46, 46] ++ [47, 46, 46, 47] ++ b) by simp, List.drop_left]
        exact ⟨[46, 46, 47] ++ b, by simp⟩
      rw [show q ++ 47 :: seg ++ [47, 46, 46, 47] ++ b = q ++ 47 :: (seg ++ 47 :: ([46, 46] ++ 47 :: b)) by simp]
      simp only [place, segs_append, segs_single (a := [46, 46]) (by decide), segs_single hseg, List.foldl_append, List.foldl_cons, List.foldl_nil]
      congr 1
      simp only [follow, if_neg n3, n1, n2, or_self, if_false, if_true]
      simp

theorem cutUp_spec (s : Bytes) (h1 : ¬ pDot <:+: s) (h2 : ¬ pSl <:+: s) (h3 : s.head? ≠ some 47) :
    Clean (cutUp s) ∧ (cutUp s).head? ≠ some 47 ∧ place (cutUp s) = place s := by
  induction hn : s.length using Nat.strongRecOn generalizing s with
  | ind n ih =>
    cases h : findSub [47, 46, 46, 47] s with
    | none => rw [cutUp_done h]; exact ⟨⟨h1, h2, findSub_none_infix h⟩, h3, rfl⟩
    | some d =>
      rw [cutUp_step h]
      obtain ⟨g1, g2, g3, g4⟩ := cutUpAt_spec h h1 h2 h3
      obtain ⟨k1, k2, k3⟩ := ih _ (hn ▸ cutUpAt_length h) _ g1 g2 g3 rfl
      exact ⟨k1, k2, k3.trans g4⟩

theorem place_cons_dot (r : Bytes) : place ([46] ++ 47 :: r) = place r := by
  simp only [place, segs_append, segs_single (a := [46]) (by decide)]
  simp [follow]

theorem place_cons_up (r : Bytes) : place ([46, 46] ++ 47 :: r) = place r := by
  simp only [place, segs_append, segs_single (a := [46, 46]) (by decide)]
  simp [follow]

/-- A clean path after a slash is a list of names, up to its last segment. -/
theorem clean_cons_iff (s : Bytes) (h : Clean s) (h0 : s.head? ≠ some 47) (h1 : s.take 2 ≠ [46, 47]) (h2 : s.take 3 ≠ [46, 46, 47]) :
    Clean (47 :: s) := by
  refine ⟨?_, ?_, ?_⟩ <;> rintro ⟨x, y, e⟩ <;> cases x with
  | nil =>
    simp only [List.nil_append, List.cons_append, List.cons.injEq, true_and] at e
    subst e
    simp at h0 h1 h2
  | cons z x =>
    simp only [List.cons_append, List.cons.injEq] at e
    first
      | exact h.1 ⟨x, y, e.2⟩
      | exact h.2.1 ⟨x, y, e.2⟩
      | exact h.2.2 ⟨x, y, e.2⟩

theorem dropHead_spec (s : Bytes) (h : Clean s) (h0 : s.head? ≠ some 47) :
    Clean (47 :: dropHead s) ∧ place (dropHead s) = place s := by
  unfold dropHead
  by_cases h1 : s.take 2 = [46, 47]
  · obtain ⟨r, rfl⟩ : ∃ r, s = [46] ++ 47 :: r := ⟨s.drop 2, by
      have := List.take_append_drop 2 s; rw [h1] at this; simpa using this.symm⟩
    have hc : Clean (47 :: r) := h.infix ⟨[46], [], by simp⟩
    have hn : r.take 3 ≠ [46, 46, 47] := by
      intro hh
      have := List.take_append_drop 3 r
      rw [hh] at this
      exact hc.2.2 ⟨[], r.drop 3, by simpa using this⟩
    rw [if_pos h1]
    simp only [List.cons_append, List.nil_append, List.drop_succ_cons, List.drop_zero]
    rw [if_neg hn]
    exact ⟨hc, (place_cons_dot r).symm⟩
  · rw [if_neg h1]
    by_cases h2 : s.take 3 = [46, 46, 47]
    · obtain ⟨r, rfl⟩ : ∃ r, s = [46, 46] ++ 47 :: r := ⟨s.drop 3, by
        have := List.take_append_drop 3 s; rw [h2] at this; simpa using this.symm⟩
      rw [if_pos h2]
      simp only [List.cons_append, List.nil_append, List.drop_succ_cons, List.drop_zero]
      exact ⟨h.infix ⟨[46, 46], [], by simp⟩, (place_cons_up r).symm⟩
    · rw [if_neg h2]
      exact ⟨clean_cons_iff s h h0 h1 h2, rfl⟩

theorem dropOnly_spec (s : Bytes) (h : Clean (47 :: s)) :
    Clean (47 :: dropOnly s) ∧ dropOnly s ≠ [46] ∧ dropOnly s ≠ [46, 46] ∧ place (dropOnly s) = place s := by
  unfold dropOnly
  have hc : Clean [47] := ⟨by decide, by decide, by decide⟩
  by_cases h1 : s = [46, 46]
  · subst h1; exact ⟨hc, by decide, by decide, by decide⟩
  · rw [if_neg h1]
    by_cases h2 : s = [46]
    · subst h2; exact ⟨hc, by decide, by decide, by decide⟩
    · rw [if_neg h2]; exact ⟨h, h2, h1, rfl⟩

theorem lastN_split {s t : Bytes} {n : Nat} (ht : t.length = n) (h : lastN s n = t) (hl : n ≤ s.length) :
    ∃ q, s = q ++ t ∧ s.length = q.length + n := by
  refine ⟨s.take (s.length - n), ?_, ?_⟩
  · rw [← h, lastN, List.take_append_drop]
  · simp only [List.length_take]; omega

theorem lastN_append (q t : Bytes) (n : Nat) (h : t.length = n) : lastN (q ++ t) n = t := by
  unfold lastN
  rw [show (q ++ t).length - n = q.length by simp; omega, List.drop_left]

/-- The shape of the result: names between slashes, except that the last segment may be empty, or ".." behind a
name ending in "..". -/
def Shape (s : Bytes) : Prop :=
  Clean (47 :: s) ∧ s ≠ [46] ∧ s ≠ [46, 46] ∧ ¬ [47, 46] <:+ s ∧ ([47, 46, 46] <:+ s → [46, 46, 47, 46, 46] <:+ s)

theorem suffix_of_last {q r t : Bytes} {c : UInt8} (hr : c ∉ r) (ht : c ∉ t) (h : c :: t <:+ q ++ c :: r) : t = r := by
  obtain ⟨x, e⟩ := h
  rcases List.append_eq_append_iff.mp e with ⟨z, h1, h2⟩ | ⟨z, h1, h2⟩
  · cases z with
    | nil => simp at h2; exact h2
    | cons w z => simp at h2; exact absurd (by rw [h2.2]; simp) ht
  · cases z with
    | nil => simp at h2; exact h2.symm
    | cons w z => simp at h2; exact absurd (by rw [h2.2]; simp) hr

theorem cutTailUp_spec (s : Bytes) (h : Clean (47 :: s)) (h1 : s ≠ [46]) (h2 : s ≠ [46, 46]) :
    Clean (47 :: cutTailUp s) ∧ cutTailUp s ≠ [46] ∧ cutTailUp s ≠ [46, 46] ∧
      ([47, 46, 46] <:+ cutTailUp s → [46, 46, 47, 46, 46] <:+ cutTailUp s) ∧ place (cutTailUp s) = place s := by
  have hc : Clean [47] := ⟨by decide, by decide, by decide⟩
  unfold cutTailUp
  by_cases ht : 2 < s.length ∧ lastN s 3 = [47, 46, 46]
  · rw [if_pos ht]
    obtain ⟨q, rfl, hl⟩ := lastN_split (by rfl) ht.2 (by omega)
    have hq : q ≠ [] := by
      rintro rfl
      exact h.2.1 ⟨[], [46, 46], by simp⟩
    by_cases h4 : (q ++ [47, 46, 46]).length ≤ 4
    · rw [if_pos h4]
      refine ⟨hc, by decide, by decide, by decide, ?_⟩
      obtain ⟨c, rfl⟩ : ∃ c, q = [c] := by
        cases q with
        | nil => exact absurd rfl hq
        | cons c q =>
          cases q with
          | nil => exact ⟨c, rfl⟩
          | cons d q => simp at h4
      have hc47 : c ≠ 47 := by rintro rfl; exact h.2.1 ⟨[], [47, 46, 46], by simp⟩
      rw [show [c] ++ [47, 46, 46] = [c] ++ 47 :: [46, 46] by rfl]
      simp only [place, segs_append, segs_single (a := [46, 46]) (by decide), segs_single (a := [c]) (by simpa using Ne.symm hc47)]
      simp only [segs_single (a := []) (by decide)]
      simp only [List.foldl_append, List.foldl_cons, List.foldl_nil, follow_up]
      rfl
    · rw [if_neg h4]
      by_cases h5 : lastN (q ++ [47, 46, 46]) 5 ≠ [46, 46, 47, 46, 46]
      · rw [if_pos h5]
        have et : (q ++ [47, 46, 46]).take ((q ++ [47, 46, 46]).length - 3) = q := by
          rw [hl, show q.length + 3 - 3 = q.length by omega, List.take_left]
        rw [et]
        cases hr : rfindChar 47 q with
        | none =>
          simp only
          refine ⟨hc, by decide, by decide, by decide, ?_⟩
          have hq47 := rfindChar_none.mp hr
          rw [show q ++ [47, 46, 46] = q ++ 47 :: [46, 46] by rfl]
          simp only [place, segs_append, segs_single (a := [46, 46]) (by decide), segs_single hq47, segs_single (a := []) (by decide)]
          simp only [List.foldl_append, List.foldl_cons, List.foldl_nil, follow_up]
          rfl
        | some p =>
          obtain ⟨q', seg, rfl, hseg, rfl⟩ := rfindChar_some hr
          simp only
          have e : (q' ++ 47 :: seg ++ [47, 46, 46]).take (q'.length + 1) = q' ++ [47] := by
            rw [show q' ++ 47 :: seg ++ [47, 46, 46] = (q' ++ [47]) ++ (seg ++ [47, 46, 46]) by simp, show q'.length + 1 = (q' ++ [47]).length by simp, List.take_left]
          rw [e]
          refine ⟨h.infix ⟨[], seg ++ [47, 46, 46], by simp⟩, ?_, ?_, ?_, ?_⟩
          · intro hh
            have := congrArg List.getLast? hh
            simp at this
          · intro hh
            have := congrArg List.getLast? hh
            simp at this
          · intro hh
            have := suffix_of_last (r := []) (by simp) (t := [46, 46]) (by decide) hh
            simp at this
          · have n1 : seg ≠ [] := by
              rintro rfl; exact h.2.1 ⟨47 :: q', [46, 46], by simp⟩
            have n2 : seg ≠ [46] := by
              rintro rfl; exact h.1 ⟨47 :: q', [46, 46], by simp⟩
            have n3 : seg ≠ [46, 46] := by
              rintro rfl; exact h.2.2 ⟨47 :: q', [46, 46], by simp⟩
            rw [show q' ++ 47 :: seg ++ [47, 46, 46] = q' ++ 47 :: (seg ++ 47 :: [46, 46]) by simp]
            simp only [place, segs_append, segs_single (a := [46, 46]) (by decide), segs_single hseg, segs_single (a := []) (by decide)]
            simp only [List.foldl_append, List.foldl_cons, List.foldl_nil]
            simp [follow, n1, n2, n3]
      · rw [if_neg h5]
        refine ⟨h, h1, h2, ?_, rfl⟩
        intro _
        have h5' : lastN (q ++ [47, 46, 46]) 5 = [46, 46, 47, 46, 46] := Decidable.byContradiction h5
        obtain ⟨z, hz, -⟩ := lastN_split (by rfl) h5' (by omega)
        exact ⟨z, hz.symm⟩
  · rw [if_neg ht]
    refine ⟨h, h1, h2, ?_, rfl⟩
    rintro ⟨q, rfl⟩
    exact absurd ⟨by simp, lastN_append q _ 3 rfl⟩ ht

theorem cutTailDot_spec (s : Bytes) (h : Clean (47 :: s)) (h1 : s ≠ [46]) (h2 : s ≠ [46, 46])
    (h3 : [47, 46, 46] <:+ s → [46, 46, 47, 46, 46] <:+ s) : Shape (cutTailDot s) ∧ place (cutTailDot s) = place s := by
  unfold cutTailDot
  by_cases ht : 1 < s.length ∧ lastN s 2 = [47, 46]
  · rw [if_pos ht]
    obtain ⟨q, rfl, hl⟩ := lastN_split (by rfl) ht.2 (by omega)
    have e : (q ++ [47, 46]).take ((q ++ [47, 46]).length - 1) = q ++ [47] := by
      rw [hl, show q ++ [47, 46] = (q ++ [47]) ++ [46] by simp, show q.length + 2 - 1 = (q ++ [47]).length by simp, List.take_left]
    rw [e]
    refine ⟨⟨h.infix ⟨[], [46], by simp⟩, ?_, ?_, ?_, ?_⟩, ?_⟩
    · intro hh
      have := congrArg List.getLast? hh
      simp at this
    · intro hh
      have := congrArg List.getLast? hh
      simp at this
    · intro hh
      have := suffix_of_last (r := []) (by simp) (t := [46]) (by decide) hh
      simp at this
    · intro hh
      have := suffix_of_last (r := []) (by simp) (t := [46, 46]) (by decide) hh
      simp at this
    · simp only [place, segs_append, segs_single (a := [46]) (by decide), segs_single (a := []) (by decide)]
      simp only [List.foldl_append, List.foldl_cons, List.foldl_nil]
      simp [follow]
  · rw [if_neg ht]
    refine ⟨⟨h, h1, h2, ?_, h3⟩, rfl⟩
    rintro ⟨q, rfl⟩
    exact absurd ⟨by simp, lastN_append q _ 2 rfl⟩ ht

theorem normPath_spec (s : Bytes) : Shape (normPath s) ∧ place (normPath s) = place s := by
  obtain ⟨a1, a2⟩ := cutDot_spec (dropSlash s)
  obtain ⟨b1, b2, b3⟩ := cutSlash_spec _ a1
  have i := dropSlash_infix (cutSlash (cutDot (dropSlash s)))
  obtain ⟨c1, c2, c3⟩ := cutUp_spec (dropSlash (cutSlash (cutDot (dropSlash s)))) (fun hi => b1 (hi.trans i)) (fun hi => b2 (hi.trans i))
    (dropSlash_head _ b2)
  obtain ⟨d1, d2⟩ := dropHead_spec _ c1 c2
  obtain ⟨e1, e2, e3, e4⟩ := dropOnly_spec _ d1
  obtain ⟨f1, f2, f3, f4, f5⟩ := cutTailUp_spec _ e1 e2 e3
  obtain ⟨g1, g2⟩ := cutTailDot_spec _ f1 f2 f3 f4
  exact ⟨g1, g2.trans (f5.trans (e4.trans (d2.trans (c3.trans ((dropSlash_place _).trans (b3.trans (a2.trans (dropSlash_place _))))))))⟩

theorem segs_cons_slash (a r : Bytes) (h : 47 ∉ a) : segs (a ++ 47 :: r) = a :: segs r := by
  rw [segs_append, segs_single h]; rfl

theorem clean_names (s : Bytes) (h : Clean (47 :: s)) : ∀ seg ∈ (segs s).dropLast, isName seg := by
  induction hn : s.length using Nat.strongRecOn generalizing s with
  | ind n ih =>
    cases hf : findChar 47 s with
    | none => rw [segs_single (findChar_none.mp hf)]; simp
    | some k =>
      obtain ⟨a, r, rfl, ha, -⟩ := findChar_some.mp hf
      rw [segs_cons_slash a r ha, List.dropLast_cons_of_ne_nil (segs_ne r)]
      intro seg hs
      rcases List.mem_cons.mp hs with rfl | hs
      · refine ⟨?_, ?_, ?_⟩
        · rintro rfl; exact h.2.1 ⟨[], r, by simp⟩
        · rintro rfl; exact h.1 ⟨[], r, by simp⟩
        · rintro rfl; exact h.2.2 ⟨[], r, by simp⟩
      · exact ih r.length (by subst hn; simp; omega) r (h.infix ⟨47 :: a, [], by simp⟩) rfl seg hs

theorem segs_getLast (s : Bytes) : (47 ∉ s ∧ segs s = [s]) ∨
    ∃ q r, s = q ++ 47 :: r ∧ 47 ∉ r ∧ segs s = segs q ++ [r] := by
  cases h : rfindChar 47 s with
  | none => left; have := rfindChar_none.mp h; exact ⟨this, segs_single this⟩
  | some n =>
    right
    obtain ⟨q, r, rfl, hr, -⟩ := rfindChar_some h
    exact ⟨q, r, rfl, hr, by rw [segs_append, segs_single hr]⟩

/-- What every segment of a normalised path looks like (specification): all but the last are names; the last
is a name, or empty (the path denotes a directory), or ".." right behind a name that itself ends in "..". -/
def Normal (l : List Bytes) : Prop :=
  ∃ names last, l = names ++ [last] ∧ (∀ n ∈ names, isName n) ∧
    (isName last ∨ last = [] ∨ (last = [46, 46] ∧ ∃ init x y, names = init ++ [x :: y ++ [46, 46]]))

theorem shape_normal (s : Bytes) (h : Shape s) : Normal (segs s) := by
  obtain ⟨hc, h1, h2, h3, h4⟩ := h
  have hn := clean_names s hc
  rcases segs_getLast s with ⟨hs, e⟩ | ⟨q, r, rfl, hr, e⟩
  · refine ⟨[], s, e, by simp, ?_⟩
    by_cases h0 : s = []
    · exact Or.inr (Or.inl h0)
    · exact Or.inl ⟨h0, h1, h2⟩
  · rw [e] at hn
    rw [List.dropLast_concat] at hn
    refine ⟨segs q, r, e, hn, ?_⟩
    by_cases r0 : r = []
    · exact Or.inr (Or.inl r0)
    by_cases r1 : r = [46]
    · subst r1; exact absurd ⟨q, rfl⟩ h3
    by_cases r2 : r = [46, 46]
    · subst r2
      right; right
      refine ⟨rfl, ?_⟩
      obtain ⟨z, hz⟩ := h4 ⟨q, rfl⟩
      have hq : q = z ++ [46, 46] := by
        have : (z ++ [46, 46]) ++ [47, 46, 46] = q ++ [47, 46, 46] := by simpa using hz
        exact (List.append_cancel_right this).symm
      subst hq
      rcases segs_getLast z with ⟨hz47, ez⟩ | ⟨q', r', rfl, hr', ez⟩
      · have e' : segs (z ++ [46, 46]) = [z ++ [46, 46]] := segs_single (by simp [hz47])
        have hnm := hn (z ++ [46, 46]) (by rw [e']; simp)
        cases z with
        | nil => exact absurd rfl hnm.2.2
        | cons x y => exact ⟨[], x, y, by rw [e']; rfl⟩
      · have e' : segs (q' ++ 47 :: r' ++ [46, 46]) = segs q' ++ [r' ++ [46, 46]] := by
          rw [show q' ++ 47 :: r' ++ [46, 46] = q' ++ 47 :: (r' ++ [46, 46]) by simp, segs_append, segs_single (a := r' ++ [46, 46]) (by simp [hr'])]
        have hnm := hn (r' ++ [46, 46]) (by rw [e']; simp)
        cases r' with
        | nil => exact absurd rfl hnm.2.2
        | cons x y => exact ⟨segs q', x, y, by rw [e']⟩
    · exact Or.inl ⟨r0, r1, r2⟩

theorem depth_names (l m : List Bytes) (d : Nat) (h : ∀ n ∈ l, isName n) : depth d (l ++ m) = depth (d + l.length) m := by
  induction l generalizing d with
  | nil => rfl
  | cons a l ih =>
    obtain ⟨a1, a2, a3⟩ := h a (by simp)
    simp only [List.cons_append, depth, if_neg a3, a1, a2, or_self, if_false, List.length_cons]
    rw [ih (d + 1) (fun n hn => h n (by simp [hn]))]
    congr 1
    omega

theorem normal_inside (s : Bytes) (h : Normal (segs s)) : staysInside s := by
  obtain ⟨names, last, e, hn, hl⟩ := h
  unfold staysInside
  rw [e, depth_names _ _ _ hn]
  rcases hl with ⟨a1, a2, a3⟩ | rfl | ⟨rfl, init, x, y, rfl⟩
  · simp [depth, a1, a2, a3]
  · simp [depth]
  · simp [depth]

/-! ## What the constructor does with the path -/

theorem parseCreds_path (u : Url) (s : Bytes) : (parseCreds u s).1.path = u.path := by
  unfold parseCreds
  split
  · rfl
  · simp only
    split <;> rfl

theorem parseHost_path (u : Url) (s : Bytes) : (parseHost u s).path = u.path := by
  have h6 : (parseHost6 u s).path = u.path := by
    unfold parseHost6
    split
    · rfl
    · simp only
      split
      · rfl
      · split <;> rfl
  have h4 : (parseHost4 u s).path = u.path := by
    unfold parseHost4
    split
    · simp only; split <;> rfl
    · simp only
      split
      · split <;> rfl
      · split <;> rfl
  have hh : (if s.head? = some 91 then parseHost6 u s else parseHost4 u s).path = u.path := by
    split
    · exact h6
    · exact h4
  unfold parseHost hostAsPort
  generalize (if s.head? = some 91 then parseHost6 u s else parseHost4 u s) = v at hh ⊢
  split <;> exact hh

theorem parseRest_path (u : Url) (s : Bytes) : (parseRest u s).path = (parsePath u (s.dropWhile (fun c => !pathStart c))).path := by
  unfold parseRest
  simp only
  rw [parseHost_path, parseCreds_path]

theorem cutQuery_proto (u : Url) (p : Bytes) : (cutQuery u p).protocol = u.protocol ∧ (cutQuery u p).host = u.host ∧ (cutQuery u p).port = u.port := by
  unfold cutQuery
  cases findChar 35 p with
  | none => simp only; split <;> exact ⟨rfl, rfl, rfl⟩
  | some h => simp only; split <;> exact ⟨rfl, rfl, rfl⟩

theorem cutQuery_path (u : Url) (p : Bytes) : (cutQuery u p).path <+: p := by
  unfold cutQuery
  cases findChar 35 p with
  | none => simp only; split; exact List.prefix_refl _; exact List.take_prefix _ _
  | some h =>
    simp only
    split
    · exact List.take_prefix _ _
    · exact (List.take_prefix _ _).trans (List.take_prefix _ _)

theorem local_eq (u : Url) (hu : u.host = [] ∧ u.port = []) :
    isLocalPath u = (u.protocol == [0x66, 0x69, 0x6C, 0x65] || u.protocol.isEmpty) := by
  simp [isLocalPath, hu.1, hu.2]

/-- The path is empty, or the normal form of a part of the text, decoded unless the URL is local. -/
theorem parsePath_path (u : Url) (rest : Bytes) (hu : u.host = [] ∧ u.port = [] ∧ u.path = []) :
    (parsePath u rest).path = [] ∨ ∃ raw, raw <:+: rest ∧ (parsePath u rest).path =
      if u.protocol = [0x66, 0x69, 0x6C, 0x65] ∨ u.protocol = [] then normPath raw else Enc.urlDecode false (normPath raw) := by
  unfold parsePath
  cases rest with
  | nil => exact Or.inl hu.2.2
  | cons c r =>
    simp only
    generalize hp : (if c = 47 then r else c :: r) = p
    have hpi : p <:+: c :: r := by
      rw [← hp]; split
      · exact ⟨[c], [], by simp⟩
      · exact List.infix_refl _
    generalize hu' : (if u.protocol ≠ rtsp then cutQuery u p else {u with path := p}) = u'
    have hpath : u'.path <+: p := by
      rw [← hu']; split
      · exact cutQuery_path u p
      · exact List.prefix_refl _
    have hpr : u'.protocol = u.protocol ∧ u'.host = u.host ∧ u'.port = u.port := by
      rw [← hu']; split
      · exact cutQuery_proto u p
      · exact ⟨rfl, rfl, rfl⟩
    unfold finishPath
    by_cases he : u'.path = []
    · rw [if_pos he]; exact Or.inl he
    · rw [if_neg he]
      right
      refine ⟨u'.path, hpath.isInfix.trans hpi, ?_⟩
      rw [local_eq u' ⟨hpr.2.1.trans hu.1, hpr.2.2.trans hu.2.1⟩, hpr.1]
      by_cases hf : u.protocol = [0x66, 0x69, 0x6C, 0x65] ∨ u.protocol = []
      · rw [if_pos hf, if_pos]; rcases hf with h | h <;> simp [h]
      · rw [if_neg hf, if_neg]; simpa [not_or] using hf

theorem dropWhile_infix (p : UInt8 → Bool) (s : Bytes) : s.dropWhile p <:+: s := (List.dropWhile_suffix p).isInfix

theorem parse_path (url : Bytes) : (parse url).path = [] ∨ ∃ raw, raw <:+: url ∧
    ((parse url).path = normPath raw ∨ (parse url).path = Enc.urlDecode false (normPath raw)) := by
  have key : ∀ u : Url, u.host = [] ∧ u.port = [] ∧ u.path = [] → ∀ s : Bytes, s <:+: url → (parseRest u s).path = [] ∨ ∃ raw, raw <:+: url ∧
    ((parseRest u s).path = normPath raw ∨ (parseRest u s).path = Enc.urlDecode false (normPath raw)) := by
    intro u hu s hs
    rw [parseRest_path]
    rcases parsePath_path u _ hu with h | ⟨raw, h1, h2⟩
    · exact Or.inl h
    · refine Or.inr ⟨raw, (h1.trans (dropWhile_infix _ _)).trans hs, ?_⟩
      rw [h2]; split
      · exact Or.inl rfl
      · exact Or.inr rfl
  unfold parse
  split
  · exact key _ ⟨rfl, rfl, rfl⟩ _ (List.drop_suffix _ _).isInfix
  · split
    · exact key _ ⟨rfl, rfl, rfl⟩ _ (List.drop_suffix _ _).isInfix
    · exact key _ ⟨rfl, rfl, rfl⟩ _ (List.infix_refl _)

theorem urlDecode_id (s : Bytes) (h : 37 ∉ s) : Enc.urlDecode false s = s := by
  induction s with
  | nil => rfl
  | cons c r ih =>
    simp only [List.mem_cons, not_or] at h
    rw [Enc.urlDecode.eq_def]
    simp [Ne.symm h.1, ih h.2]

/-! ### Normalising only removes bytes -/

theorem eraseAt_mem {s : Bytes} {p n : Nat} {c : UInt8} (h : c ∈ eraseAt s p n) : c ∈ s := by
  simp only [eraseAt, List.mem_append] at h
  rcases h with h | h
  · exact List.mem_of_mem_take h
  · exact List.mem_of_mem_drop h

theorem cutDot_mem (s : Bytes) (c : UInt8) (h : c ∈ cutDot s) : c ∈ s := by
  induction hn : s.length using Nat.strongRecOn generalizing s with
  | ind n ih =>
    cases hf : findSub [47, 46, 47] s with
    | none => rwa [cutDot_done hf] at h
    | some d => rw [cutDot_step hf] at h; exact eraseAt_mem (ih _ (hn ▸ eraseAt_length hf (by simp) (by omega)) _ h rfl)

theorem cutSlash_mem (s : Bytes) (c : UInt8) (h : c ∈ cutSlash s) : c ∈ s := by
  induction hn : s.length using Nat.strongRecOn generalizing s with
  | ind n ih =>
    cases hf : findSub [47, 47] s with
    | none => rwa [cutSlash_done hf] at h
    | some d => rw [cutSlash_step hf] at h; exact eraseAt_mem (ih _ (hn ▸ eraseAt_length hf (by simp) (by omega)) _ h rfl)

theorem cutUp_mem (s : Bytes) (c : UInt8) (h : c ∈ cutUp s) : c ∈ s := by
  induction hn : s.length using Nat.strongRecOn generalizing s with
  | ind n ih =>
    cases hf : findSub [47, 46, 46, 47] s with
    | none => rwa [cutUp_done hf] at h
    | some d =>
      rw [cutUp_step hf] at h
      have := ih _ (hn ▸ cutUpAt_length hf) _ h rfl
      unfold cutUpAt at this
      split at this
      · exact eraseAt_mem this
      · split at this <;> exact eraseAt_mem this

theorem dropSlash_mem (s : Bytes) (c : UInt8) (h : c ∈ dropSlash s) : c ∈ s := (dropSlash_infix s).subset h

theorem normPath_mem (s : Bytes) (c : UInt8) (h : c ∈ normPath s) : c ∈ s := by
  unfold normPath at h
  have h1 : ∀ s, c ∈ cutTailDot s → c ∈ s := by
    intro s h; unfold cutTailDot at h; split at h
    · exact List.mem_of_mem_take h
    · exact h
  have h2 : ∀ s, c ∈ cutTailUp s → c ∈ s := by
    intro s h; unfold cutTailUp at h
    split at h
    · split at h
      · simp at h
      · split at h
        · split at h
          · simp at h
          · exact List.mem_of_mem_take h
        · exact h
    · exact h
  have h3 : ∀ s, c ∈ dropOnly s → c ∈ s := by
    intro s h; unfold dropOnly at h
    simp only at h
    split at h
    · simp at h
    · split at h
      · simp at h
      · exact h
  have h4 : ∀ s, c ∈ dropHead s → c ∈ s := by
    intro s h; unfold dropHead at h
    have h5 : ∀ (s : Bytes), c ∈ (if s.take 2 = [46, 47] then s.drop 2 else s) → c ∈ s := by
      intro s h; split at h
      · exact List.mem_of_mem_drop h
      · exact h
    apply h5
    generalize (if s.take 2 = [46, 47] then s.drop 2 else s) = t at h ⊢
    simp only at h
    split at h
    · exact List.mem_of_mem_drop h
    · exact h
  exact dropSlash_mem _ _ (cutDot_mem _ _ (cutSlash_mem _ _ (dropSlash_mem _ _ (cutUp_mem _ _ (h4 _ (h3 _ (h2 _ (h1 _ h))))))))

/-! ## C38 -/

/-- C38 for every URL without a '%': the path consists of names only (with the exception spelled out in `Normal`), so
it never climbs above its root. (Partial: '%' is missing; see `C38_encoded_fails`.) -/
theorem C38_normal_partial (url : Bytes) (h : 37 ∉ url) : Normal (segs (parse url).path) ∧ staysInside (parse url).path := by
  have hnil : Normal (segs []) := ⟨[], [], rfl, by simp, Or.inr (Or.inl rfl)⟩
  have : Normal (segs (parse url).path) := by
    rcases parse_path url with e | ⟨raw, hi, e | e⟩
    · rw [e]; exact hnil
    · rw [e]; exact shape_normal _ (normPath_spec raw).1
    · rw [e, urlDecode_id _ (fun hh => h (hi.subset (normPath_mem _ _ hh)))]
      exact shape_normal _ (normPath_spec raw).1
  exact ⟨this, normal_inside _ this⟩

/-- "h://h/a/../../e" is such a URL. -/
example : 37 ∉ ([0x68, 0x3A, 0x2F, 0x2F, 0x68, 0x2F, 0x61, 0x2F, 0x2E, 0x2E, 0x2F, 0x2E, 0x2E, 0x2F, 0x65] : Bytes) := by decide

/-- C38 for files: when the URL has the protocol "file" or none at all, the path is used as it is (nothing is decoded) and
consists of names only, whatever bytes the URL has. -/
theorem C38_local (url : Bytes) (h : findSub [58, 47, 47] url = none ∨ [0x66, 0x69, 0x6C, 0x65, 58, 47, 47] <+: url) :
    Normal (segs (parse url).path) ∧ staysInside (parse url).path := by
  have key : ∀ u : Url, u.host = [] ∧ u.port = [] ∧ u.path = [] → (u.protocol = [0x66, 0x69, 0x6C, 0x65] ∨ u.protocol = []) →
      ∀ s, Normal (segs (parseRest u s).path) := by
    intro u hu hp s
    rw [parseRest_path]
    rcases parsePath_path u (s.dropWhile (fun c => !pathStart c)) hu with e | ⟨raw, -, e⟩
    · rw [e]; exact ⟨[], [], rfl, by simp, Or.inr (Or.inl rfl)⟩
    · rw [e, if_pos hp]; exact shape_normal _ (normPath_spec raw).1
  have : Normal (segs (parse url).path) := by
    rcases h with h | ⟨t, rfl⟩
    · unfold parse
      rw [h]
      simp only
      split <;> exact key _ ⟨rfl, rfl, rfl⟩ (Or.inr rfl) _
    · unfold parse
      have : findSub [58, 47, 47] ([0x66, 0x69, 0x6C, 0x65, 58, 47, 47] ++ t) = some 4 := by
        simp [findSub, List.isPrefixOf]
      rw [this]
      exact key _ ⟨rfl, rfl, rfl⟩ (Or.inl rfl) _
  exact ⟨this, normal_inside _ this⟩

/-- C38: normalising does not change what the path denotes: following the given path from the root (the root being its
own parent) leads to the same place as the path in the result. -/
theorem C38_same_place (proto auth p : Bytes) (hp : 58 ∉ proto) (hr : proto ≠ rtsp) (ha : ∀ c ∈ auth, c ≠ 47 ∧ c ≠ 63 ∧ c ≠ 35)
    (h : ∀ c ∈ p, c ≠ 63 ∧ c ≠ 35 ∧ c ≠ 37) :
    place (parse (proto ++ [58, 47, 47] ++ auth ++ 47 :: p)).path = place p := by
  have e1 : findSub [58, 47, 47] (proto ++ [58, 47, 47] ++ auth ++ 47 :: p) = some proto.length := by
    clear hr
    induction proto with
    | nil => simp [findSub, List.isPrefixOf]
    | cons c r ih =>
      simp only [List.mem_cons, not_or] at hp
      have := ih hp.2
      simp only [List.append_assoc, List.cons_append, List.nil_append] at this ⊢
      simp [findSub, this, hp.1]
  unfold parse
  rw [e1]
  simp only
  rw [parseRest_path]
  have e2 : (proto ++ [58, 47, 47] ++ auth ++ 47 :: p).take proto.length = proto := by simp
  have e3 : (proto ++ [58, 47, 47] ++ auth ++ 47 :: p).drop (proto.length + 3) = auth ++ 47 :: p := by
    rw [show proto ++ [58, 47, 47] ++ auth ++ 47 :: p = (proto ++ [58, 47, 47]) ++ (auth ++ 47 :: p) by simp,
      show proto.length + 3 = (proto ++ [58, 47, 47]).length by simp, List.drop_left]
  rw [e2, e3]
  have e4 : (auth ++ 47 :: p).dropWhile (fun c => !pathStart c) = 47 :: p := by
    rw [List.dropWhile_append_of_pos]
    · rfl
    · intro c hc
      have := ha c hc
      simp [pathStart, this.1, this.2.1, this.2.2]
  rw [e4]
  have f1 : findChar 35 p = none := findChar_none.mpr (fun hh => (h _ hh).2.1 rfl)
  have f2 : findChar 63 p = none := findChar_none.mpr (fun hh => (h _ hh).1 rfl)
  unfold parsePath
  simp only [if_true, hr, ne_eq, not_false_iff]
  rw [show cutQuery {protocol := proto} p = {protocol := proto, path := p} by unfold cutQuery; rw [f1]; simp only [f2]]
  unfold finishPath
  by_cases hp0 : p = []
  · simp [hp0]
  · simp only [if_neg hp0]
    split
    · exact (normPath_spec p).2
    · simp only
      rw [urlDecode_id _ (fun hh => (h _ (normPath_mem _ _ hh)).2.2 rfl)]
      exact (normPath_spec p).2

/-- "h://x:1/a/./b//../c" satisfies the hypotheses. -/
example : 58 ∉ ([0x68] : Bytes) ∧ [0x68] ≠ rtsp ∧ (∀ c ∈ ([0x78, 0x3A, 0x31] : Bytes), c ≠ 47 ∧ c ≠ 63 ∧ c ≠ 35) ∧
    (∀ c ∈ ([0x61, 47, 46, 47, 0x62, 47, 47, 46, 46, 47, 0x63] : Bytes), c ≠ 63 ∧ c ≠ 35 ∧ c ≠ 37) ∧
    place [0x61, 47, 46, 47, 0x62, 47, 47, 46, 46, 47, 0x63] = [[0x63], [0x61]] := by decide +kernel

theorem normPath_of_done {s : Bytes} (h1 : findSub [47, 46, 47] (dropSlash s) = none) (h2 : findSub [47, 47] (dropSlash s) = none)
    (h3 : findSub [47, 46, 46, 47] (dropSlash (dropSlash s)) = none) :
    normPath s = cutTailDot (cutTailUp (dropOnly (dropHead (dropSlash (dropSlash s))))) := by
  unfold normPath
  rw [cutDot_done h1, cutSlash_done h2, cutUp_done h3]

/-- C38 fails for encoded dots: the path of "h://h/%2e%2e/x" is decoded after it has been normalised and becomes "../x". -/
theorem C38_encoded_fails : ∃ url, ¬ staysInside (parse url).path := by
  refine ⟨[0x68, 58, 47, 47, 0x68, 47, 37, 0x32, 0x65, 37, 0x32, 0x65, 47, 0x78], ?_⟩
  have : (parse [0x68, 58, 47, 47, 0x68, 47, 37, 0x32, 0x65, 37, 0x32, 0x65, 47, 0x78]).path = [46, 46, 47, 0x78] := by
    unfold parse
    rw [show findSub [58, 47, 47] [0x68, 58, 47, 47, 0x68, 47, 37, 0x32, 0x65, 37, 0x32, 0x65, 47, 0x78] = some 1 by decide +kernel]
    simp only
    rw [parseRest_path]
    rw [show (List.drop (1 + 3) [0x68, 58, 47, 47, 0x68, 47, 37, 0x32, 0x65, 37, 0x32, 0x65, 47, 0x78]).dropWhile (fun c => !pathStart c) =
      [47, 37, 0x32, 0x65, 37, 0x32, 0x65, 47, 0x78] by decide]
    unfold parsePath
    simp only
    rw [show (if ¬ List.take 1 [0x68, 58, 47, 47, 0x68, 47, 37, 0x32, 0x65, 37, 0x32, 0x65, 47, 0x78] = rtsp then
      cutQuery {protocol := List.take 1 [0x68, 58, 47, 47, 0x68, 47, 37, 0x32, 0x65, 37, 0x32, 0x65, 47, 0x78]} (if True then [37, 0x32, 0x65, 37, 0x32, 0x65, 47, 0x78] else [47, 37, 0x32, 0x65, 37, 0x32, 0x65, 47, 0x78])
      else {protocol := List.take 1 [0x68, 58, 47, 47, 0x68, 47, 37, 0x32, 0x65, 37, 0x32, 0x65, 47, 0x78], path := (if True then [37, 0x32, 0x65, 37, 0x32, 0x65, 47, 0x78] else [47, 37, 0x32, 0x65, 37, 0x32, 0x65, 47, 0x78])}) =
      ({protocol := [0x68], path := [37, 0x32, 0x65, 37, 0x32, 0x65, 47, 0x78]} : Url) by decide +kernel]
    unfold finishPath
    rw [if_neg (by decide), if_neg (by decide)]
    simp only
    rw [normPath_of_done (by decide +kernel) (by decide +kernel) (by decide +kernel)]
    decide +kernel
  rw [this]
  decide

end Verif.Url
