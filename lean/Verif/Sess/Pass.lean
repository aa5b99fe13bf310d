import Verif.Sess.Props

/-!
# C99: a whole pass
-/
namespace Verif.Sess

/-- The session takes some steps while the connections do nothing. -/
def turns : Nat → State → State
  | 0, s => s
  | k + 1, s => turns k (step s .turn)

theorem turns_add (a b : Nat) (s : State) : turns (a + b) s = turns b (turns a s) := by
  induction a generalizing s with
  | zero => rw [Nat.zero_add]; rfl
  | succ a ih => rw [Nat.succ_add]; exact ih _

/-- What a pass at a time adds for a record: what its connection reported more than is kept, if the record is used and was updated within the last ten seconds (for inputs always). -/
def adds (now : Nat) (input : Bool) (x : Slot) : Nat :=
  if x.status ≠ .invalid ∧ (input = true ∨ (10 ≤ now ∧ now ≤ x.now + 10)) then x.down - x.kept else 0

/-- What is left of a record: it is free if its connection has let go of it. -/
def left (x y : Slot) : Prop := (x.status = .gone → y.status = .invalid ∧ y.kept = 0) ∧ (x.status = .invalid → y = x)

theorem step_turn (s : State) : step s .turn = turn s := rfl

theorem pass_one (s : State) (i : Nat) (x : Slot) (hp : s.phase = .top i) (hx : s.slots[i]? = some x) :
    ∃ k y, (turns k s) = { s with phase := .top (i + 1), slots := s.slots.set i y, total := s.total + adds s.now s.input x } ∧ left x y := by
  have hil : i < s.slots.length := (List.getElem?_eq_some_iff.mp hx).1
  have hm : ∀ (f : Slot → Slot), s.slots.modify i f = s.slots.set i (f x) := by
    intro f
    apply List.ext_getElem?
    intro j
    rw [get_modify, List.getElem?_set]
    by_cases hj : i = j
    · subst hj; simp only [hx, hil, if_pos, Option.map_some]
    · simp [hj]
  have hself : s.slots.set i x = s.slots := by
    apply List.ext_getElem?
    intro j
    rw [List.getElem?_set]
    by_cases hj : i = j
    · subst hj; rw [hx]; simp [hil]
    · simp [hj]
  have hmm : ∀ (y : Slot) (f : Slot → Slot), (s.slots.set i y).modify i f = s.slots.set i (f y) := by
    intro y f
    apply List.ext_getElem?
    intro j
    rw [get_modify, List.getElem?_set, List.getElem?_set]
    by_cases hj : i = j
    · subst hj; simp [hil]
    · simp [hj]
  have hgs : ∀ y : Slot, (s.slots.set i y)[i]? = some y := by intro y; simp [hil]
  by_cases h0 : x.status = .invalid
  · refine ⟨1, x, ?_, ⟨fun h => by rw [h0] at h; (cases h), fun _ => rfl⟩⟩
    unfold adds
    rw [if_neg (fun h => h.1 h0), hself]
    show turn s = _
    unfold turn
    rw [hp]
    dsimp only
    rw [hx]
    dsimp only
    rw [if_pos h0]
    rfl
  · obtain ⟨g, x1, hg, hx1, h1⟩ : ∃ g x1, (g = true ↔ x.status = .gone) ∧ (x1.now = x.now ∧ x1.down = x.down ∧ x1.kept = x.kept) ∧
        step s .turn = { s with phase := .look i g, slots := s.slots.set i x1 } := by
      by_cases hd : x.status = .active ∧ x.alive = false
      · refine ⟨false, { x with status := .gone }, by rw [hd.1]; simp, ⟨rfl, rfl, rfl⟩, ?_⟩
        show turn s = _
        unfold turn
        rw [hp]
        dsimp only
        rw [hx]
        dsimp only
        rw [if_neg h0, if_pos hd, hm]
      · refine ⟨decide (x.status = .gone), x, by simp, ⟨rfl, rfl, rfl⟩, ?_⟩
        show turn s = _
        unfold turn
        rw [hp]
        dsimp only
        rw [hx]
        dsimp only
        rw [if_neg h0, if_neg hd, hself]
    -- the end of the treatment of a record
    have hend : ∀ (y : Slot) (t : Nat), ∃ z, step { s with phase := .finish i g, slots := s.slots.set i y, total := t } .turn =
        { s with phase := .top (i + 1), slots := s.slots.set i z, total := t } ∧ left x z := by
      intro y t
      rw [step_turn]
      unfold turn
      dsimp only
      cases hgb : g with
      | true =>
        refine ⟨{ y with status := .invalid, kept := 0 }, ?_, fun _ => ⟨rfl, rfl⟩, fun h => absurd h h0⟩
        rw [if_pos rfl, hmm]
      | false =>
        refine ⟨y, by rw [if_neg (by simp)], fun h => ?_, fun h => absurd h h0⟩
        rw [hg.mpr h] at hgb; cases hgb
    by_cases hst : stale s.now x1 = true ∧ s.input = false
    · obtain ⟨z, hz, hl⟩ := hend x1 s.total
      refine ⟨3, z, ?_, hl⟩
      have ha : adds s.now s.input x = 0 := by
        unfold adds
        rw [if_neg]
        rintro ⟨_, h | ⟨h, h'⟩⟩
        · rw [hst.2] at h; cases h
        · have := hst.1
          unfold stale at this
          rw [hx1.1] at this
          simp only [Bool.or_eq_true, decide_eq_true_eq] at this
          omega
      have h2 : step (step s .turn) .turn = { s with phase := .finish i g, slots := s.slots.set i x1, total := s.total } := by
        rw [h1]
        rw [step_turn]
        unfold turn
        dsimp only
        rw [hgs]
        dsimp only
        rw [if_pos hst]
      show step (step (step s .turn) .turn) .turn = _
      rw [h2, hz, ha]
      rfl
    · obtain ⟨x2, hx2, h3⟩ : ∃ x2 : Slot, x2.down = x.down ∧ x2.down - x2.kept = x.down - x.kept ∧
          step (step (step s .turn) .turn) .turn = { s with phase := .add i g, slots := s.slots.set i x2 } := by
        have h2 : step (step s .turn) .turn = { s with phase := .check i g, slots := s.slots.set i x1 } := by
          rw [h1]
          rw [step_turn]
          unfold turn
          dsimp only
          rw [hgs]
          dsimp only
          rw [if_neg hst]
        refine ⟨if x1.down < x1.kept then { x1 with kept := x1.down } else x1, ?_, ?_, ?_⟩
        · split
          · exact hx1.2.1
          · exact hx1.2.1
        · rw [hx1.2.1, hx1.2.2]
          split
          next h => dsimp only; omega
          next h => rw [hx1.2.1, hx1.2.2]
        · rw [h2]
          rw [step_turn]
          unfold turn
          dsimp only
          rw [hmm]
      obtain ⟨z, hz, hl⟩ := hend { x2 with kept := x2.down } (s.total + (x2.down - x2.kept))
      refine ⟨6, z, ?_, hl⟩
      have ha : adds s.now s.input x = x2.down - x2.kept := by
        unfold adds
        rw [h3.1, if_pos]
        refine ⟨h0, ?_⟩
        cases hin : s.input with
        | true => exact .inl rfl
        | false =>
          right
          have : ¬ stale s.now x1 = true := fun h => hst ⟨h, hin⟩
          unfold stale at this
          rw [hx1.1] at this
          simp only [Bool.or_eq_true, decide_eq_true_eq] at this
          omega
      show step (step (step (step (step (step s .turn) .turn) .turn) .turn) .turn) .turn = _
      rw [h3.2]
      have h4 : step { s with phase := .add i g, slots := s.slots.set i x2 } .turn =
          { s with phase := .store i g, slots := s.slots.set i x2, total := s.total + (x2.down - x2.kept) } := by
        rw [step_turn]
        unfold turn
        dsimp only
        rw [hgs]
      have h5 : step { s with phase := .store i g, slots := s.slots.set i x2, total := s.total + (x2.down - x2.kept) } .turn =
          { s with phase := .finish i g, slots := s.slots.set i { x2 with kept := x2.down }, total := s.total + (x2.down - x2.kept) } := by
        rw [step_turn]
        unfold turn
        dsimp only
        rw [hmm]
      rw [h4, h5, hz, ha]

/-- C99: a pass of the session comes to its end when the connections leave it alone; it adds what each connection reported more than before, for all records that are used and were
updated within the last ten seconds, and frees the records of all connections that have let go of them. -/
theorem C99_pass (s : State) (t : Nat) (h : s.phase = .idle) :
    ∃ k, (turns k (step s (.pass t))).phase = .idle ∧
      (turns k (step s (.pass t))).total = s.total + (s.slots.map (adds t s.input)).sum ∧
      ∀ (i : Nat) x, s.slots[i]? = some x → ∃ y, (turns k (step s (.pass t))).slots[i]? = some y ∧ left x y := by
  have h0 : step s (.pass t) = { s with phase := .top 0, now := t } := by
    show (if s.phase = .idle then _ else s) = _
    rw [if_pos h]
  rw [h0]
  suffices hu : ∀ (n i : Nat) (q : State), q.slots.length - i = n → i ≤ q.slots.length → q.phase = .top i →
      ∃ k, (turns k q).phase = .idle ∧ (turns k q).total = q.total + ((q.slots.drop i).map (adds q.now q.input)).sum ∧
        ∀ (j : Nat) x, q.slots[j]? = some x → ∃ y, (turns k q).slots[j]? = some y ∧ (i ≤ j → left x y) ∧ (j < i → y = x) by
    obtain ⟨k, h1, h2, h3⟩ := hu _ 0 { s with phase := .top 0, now := t } rfl (Nat.zero_le _) rfl
    refine ⟨k, h1, by rw [h2, List.drop_zero], ?_⟩
    intro i x hx
    obtain ⟨y, hy, hl, _⟩ := h3 i x hx
    exact ⟨y, hy, hl (Nat.zero_le _)⟩
  intro n
  induction n with
  | zero =>
    intro i q hn hi hp
    have hi' : i = q.slots.length := by omega
    have hnone : q.slots[i]? = none := List.getElem?_eq_none (by omega)
    refine ⟨1, ?_, ?_, ?_⟩
    · show (turn q).phase = _
      unfold turn; rw [hp]; dsimp only; rw [hnone]
    · show (turn q).total = _
      rw [hi', List.drop_length]
      unfold turn; rw [hp]; dsimp only; rw [hnone]
      rfl
    · intro j x hx
      have hj := (List.getElem?_eq_some_iff.mp hx).1
      refine ⟨x, ?_, fun h => by omega, fun _ => rfl⟩
      show (turn q).slots[j]? = _
      unfold turn; rw [hp]; dsimp only; rw [hnone]
      exact hx
  | succ n ih =>
    intro i q hn hi hp
    have hil : i < q.slots.length := by omega
    obtain ⟨k1, y, hk1, hl⟩ := pass_one q i q.slots[i] hp (List.getElem?_eq_getElem hil)
    generalize hq' : ({ q with phase := .top (i + 1), slots := q.slots.set i y, total := q.total + adds q.now q.input q.slots[i] } : State) = q' at hk1
    have e1 : q'.slots = q.slots.set i y := by rw [← hq']
    have e2 : q'.total = q.total + adds q.now q.input q.slots[i] := by rw [← hq']
    have e3 : q'.phase = .top (i + 1) := by rw [← hq']
    have e4 : q'.now = q.now ∧ q'.input = q.input := by rw [← hq']; exact ⟨rfl, rfl⟩
    obtain ⟨k2, h1, h2, h3⟩ := ih (i + 1) q' (by rw [e1, List.length_set]; omega) (by rw [e1, List.length_set]; omega) e3
    refine ⟨k1 + k2, ?_, ?_, ?_⟩
    · rw [turns_add, hk1]; exact h1
    · rw [turns_add, hk1, h2, e2, e4.1, e4.2, e1, List.drop_eq_getElem_cons hil, List.map_cons, List.sum_cons,
        List.drop_set_of_lt (Nat.lt_succ_self i), Nat.succ_eq_add_one]
      omega
    · intro j x hx
      rw [turns_add, hk1]
      by_cases hj : j = i
      · subst hj
        have hxe : q.slots[j] = x := by
          rw [List.getElem?_eq_getElem hil] at hx; exact Option.some.inj hx
        obtain ⟨z, hz, _, hz2⟩ := h3 j y (by rw [e1]; simp [hil])
        refine ⟨z, hz, fun _ => ?_, fun h => absurd h (Nat.lt_irrefl _)⟩
        rw [hz2 (Nat.lt_succ_self j), ← hxe]
        exact hl
      · obtain ⟨z, hz, hz1, hz2⟩ := h3 j x (by rw [e1, List.getElem?_set, if_neg (Ne.symm hj)]; exact hx)
        exact ⟨z, hz, fun h => hz1 (by omega), fun h => hz2 (by omega)⟩

/-- A pass over a free record, a connection with new bytes and one that has let go. -/
example : (∃ k, (turns k (step { slots := [{}, ⟨.active, true, 20, 9, 4⟩, ⟨.gone, false, 21, 7, 5⟩] } (.pass 22))).phase = .idle) ∧
    (([({} : Slot), ⟨.active, true, 20, 9, 4⟩, ⟨.gone, false, 21, 7, 5⟩] : List Slot).map (adds 22 false)).sum = 7 :=
  ⟨⟨14, by decide +kernel⟩, by decide +kernel⟩

end Verif.Sess
