import Verif.Sess.Model

/-!
# C99: the traffic of a session is that of its connections
-/
namespace Verif.Sess

theorem sum_modify {α : Type} (l : List α) (i : Nat) (f : α → α) (g : α → Nat) (x : α) (h : l[i]? = some x) :
    ((l.modify i f).map g).sum + g x = (l.map g).sum + g (f x) := by
  induction l generalizing i with
  | nil => cases h
  | cons a l ih =>
    cases i with
    | zero =>
      obtain rfl := Option.some.inj h
      simp only [List.modify_zero_cons, List.map_cons, List.sum_cons]
      omega
    | succ i =>
      have := ih i (by simpa using h)
      simp only [List.modify_succ_cons, List.map_cons, List.sum_cons]
      omega

theorem modify_none {α : Type} (l : List α) (i : Nat) (f : α → α) (h : l[i]? = none) : l.modify i f = l := by
  induction l generalizing i with
  | nil => cases i <;> rfl
  | cons a l ih =>
    cases i with
    | zero => simp at h
    | succ i => rw [List.modify_succ_cons, ih i (by simpa using h)]

theorem get_modify {α : Type} (l : List α) (i j : Nat) (f : α → α) : (l.modify i f)[j]? = if i = j then l[j]?.map f else l[j]? := by
  rw [List.getElem?_modify]
  split <;> cases l[j]? <;> rfl

/-- What a record has that was not counted yet. -/
def rest (x : Slot) : Nat := if x.status = .invalid then 0 else x.down - x.kept

/-- The sum of it. -/
def gap (s : State) : Nat := (s.slots.map rest).sum

/-- The record that the session looks at, and the status it has read. -/
def Phase.at : Phase → Option (Nat × Bool)
  | .look i g => some (i, g)
  | .check i g => some (i, g)
  | .add i g => some (i, g)
  | .store i g => some (i, g)
  | .finish i g => some (i, g)
  | _ => none

/-- A record is as it should be. -/
def Fine (x : Slot) : Prop := (x.status = .invalid → x.kept = 0) ∧ (x.status ≠ .invalid → x.kept ≤ x.down)

/-- The record in use is in the table, is in use, and when its end was read it has ended. -/
def Here (s : State) : Prop := ∀ i g, s.phase.at = some (i, g) → ∃ x, s.slots[i]? = some x ∧ x.status ≠ .invalid ∧ (g = true → x.status = .gone)

def Good (s : State) : Prop := (∀ (i : Nat) x, s.slots[i]? = some x → Fine x) ∧ Here s

/-- What was added to the total and is not yet kept. -/
def bound (s : State) : Nat :=
  match s.phase with
  | .store i _ => match s.slots[i]? with | some x => rest x | none => 0
  | _ => 0

theorem gap_modify {s : State} {i : Nat} {x : Slot} (f : Slot → Slot) (h : s.slots[i]? = some x) :
    (((s.slots.modify i f).map rest).sum) + rest x = gap s + rest (f x) := sum_modify s.slots i f rest x h

theorem recs_modify {l : List Slot} {i : Nat} {f : Slot → Slot} (h : ∀ (j : Nat) x, l[j]? = some x → Fine x) (hf : ∀ x, l[i]? = some x → Fine x → Fine (f x)) :
    ∀ (j : Nat) x, (l.modify i f)[j]? = some x → Fine x := by
  intro j x hx
  rw [get_modify] at hx
  split at hx
  next hij =>
    subst hij
    obtain ⟨y, hy, rfl⟩ := Option.map_eq_some_iff.mp hx
    exact hf y hy (h _ y hy)
  next => exact h j x hx

/-- A change of a record by its connection: it keeps what is kept, never frees a record, and never takes back the end. -/
structure Mild (f : Slot → Slot) : Prop where
  used : ∀ x, x.status ≠ .invalid → (f x).status ≠ .invalid
  gone : ∀ x, x.status = .gone → (f x).status = .gone

theorem here_modify {s t : State} {i : Nat} {f : Slot → Slot} (hf : Mild f) (hp : t.phase = s.phase) (hs : t.slots = s.slots.modify i f) (h : Here s) : Here t := by
  intro j g hj
  rw [hp] at hj
  obtain ⟨x, hx, h1, h2⟩ := h j g hj
  rw [hs, get_modify, hx]
  by_cases hij : i = j
  · rw [if_pos hij]
    exact ⟨f x, rfl, hf.used x h1, fun hg => hf.gone x (h2 hg)⟩
  · rw [if_neg hij]
    exact ⟨x, rfl, h1, h2⟩

/-- A change that leaves all counts. -/
theorem quiet {s t : State} {i : Nat} {f : Slot → Slot} (hp : t.phase = s.phase) (hs : t.slots = s.slots.modify i f)
    (hr : ∀ x, s.slots[i]? = some x → rest (f x) = rest x) : gap t = gap s ∧ bound t = bound s := by
  cases hx : s.slots[i]? with
  | none =>
    have : t.slots = s.slots := by rw [hs, modify_none _ _ _ hx]
    unfold gap bound
    rw [hp, this]
    exact ⟨rfl, rfl⟩
  | some x =>
    have h1 := gap_modify f hx
    have h2 := hr x hx
    refine ⟨by unfold gap at h1 ⊢; rw [hs]; omega, ?_⟩
    unfold bound
    rw [hp]
    cases s.phase with
    | store j g =>
      simp only
      rw [hs, get_modify]
      by_cases hij : i = j
      · subst hij
        rw [if_pos rfl, hx]
        exact h2
      · rw [if_neg hij]
    | _ => rfl

theorem mild_open : Mild opened where
  used x h := by unfold opened; rw [if_neg h]; exact h
  gone x h := by unfold opened; rw [if_neg (by rw [h]; decide)]; exact h

theorem mild_stamp (t : Nat) : Mild fun x => if x.live then { x with now := t } else x where
  used x h := by split <;> exact h
  gone x h := by split <;> exact h

theorem mild_send (n : Nat) : Mild fun x => { x with down := x.down + n } where
  used x h := h
  gone x h := h

theorem mild_close : Mild fun x => if x.live then { x with status := .gone, alive := false } else x where
  used x h := by
    split
    · exact fun hc => by cases hc
    · exact h
  gone x h := by
    split
    · rfl
    · exact h

theorem mild_die : Mild fun x => { x with alive := false } where
  used x h := h
  gone x h := h

theorem live_used {x : Slot} (h : x.live = true) : x.status = .active := by
  unfold Slot.live at h
  rw [Bool.and_eq_true] at h
  exact of_decide_eq_true h.1

/-- The steps of the session keep the records sound. -/
theorem good_turn {s : State} (h : Good s) : Good (turn s) := by
  obtain ⟨hr, hh⟩ := h
  unfold turn
  cases hp : s.phase with
  | idle => exact ⟨hr, hh⟩
  | over => exact ⟨hr, hh⟩
  | top i =>
    simp only
    cases hx : s.slots[i]? with
    | none => exact ⟨hr, fun j g hj => by cases hj⟩
    | some x =>
      simp only
      split
      · exact ⟨hr, fun j g hj => by cases hj⟩
      next hinv =>
        split
        next hd =>
          refine ⟨recs_modify hr (fun y hy hf => ?_), ?_⟩
          · rw [hx] at hy
            obtain rfl := Option.some.inj hy
            exact ⟨(fun hc => by cases hc), fun _ => hf.2 hinv⟩
          · intro j g hj
            cases hj
            refine ⟨{ x with status := .gone }, ?_, (fun hc => by cases hc), (fun _ => rfl)⟩
            rw [get_modify, if_pos rfl, hx]
            rfl
        · refine ⟨hr, ?_⟩
          intro j g hj
          cases hj
          exact ⟨x, hx, hinv, fun hg => of_decide_eq_true hg⟩
  | look i g =>
    obtain ⟨x, hx, h1, h2⟩ := hh i g (by rw [hp]; rfl)
    simp only [hx]
    split
    · exact ⟨hr, fun j g' hj => by cases hj; exact ⟨x, hx, h1, h2⟩⟩
    · exact ⟨hr, fun j g' hj => by cases hj; exact ⟨x, hx, h1, h2⟩⟩
  | check i g =>
    obtain ⟨x, hx, h1, h2⟩ := hh i g (by rw [hp]; rfl)
    refine ⟨recs_modify hr (fun y hy hf => ?_), ?_⟩
    · split
      next hlt =>
        rw [hx] at hy
        obtain rfl := Option.some.inj hy
        exact ⟨fun hc => absurd hc h1, fun _ => Nat.le_refl _⟩
      · exact hf
    · intro j g' hj
      cases hj
      refine ⟨_, by rw [get_modify, if_pos rfl, hx]; rfl, ?_, ?_⟩
      · show (if _ then _ else _ : Slot).status ≠ _
        split <;> exact h1
      · intro hg
        show (if _ then _ else _ : Slot).status = _
        split <;> exact h2 hg
  | add i g =>
    obtain ⟨x, hx, h1, h2⟩ := hh i g (by rw [hp]; rfl)
    simp only [hx]
    exact ⟨hr, fun j g' hj => by cases hj; exact ⟨x, hx, h1, h2⟩⟩
  | store i g =>
    obtain ⟨x, hx, h1, h2⟩ := hh i g (by rw [hp]; rfl)
    refine ⟨recs_modify hr (fun y hy hf => ?_), ?_⟩
    · rw [hx] at hy
      obtain rfl := Option.some.inj hy
      exact ⟨fun hc => absurd hc h1, fun _ => Nat.le_refl _⟩
    · intro j g' hj
      cases hj
      exact ⟨{ x with kept := x.down }, by rw [get_modify, if_pos rfl, hx]; rfl, h1, h2⟩
  | finish i g =>
    simp only
    split
    · refine ⟨recs_modify hr (fun y hy hf => ?_), fun j g' hj => by cases hj⟩
      exact ⟨fun _ => rfl, fun hc => absurd rfl hc⟩
    · exact ⟨hr, fun j g' hj => by cases hj⟩

theorem good_step {s : State} (op : Op) (h : Good s) : Good (step s op) := by
  obtain ⟨hr, hh⟩ := h
  cases op with
  | «open» i =>
    refine ⟨recs_modify hr (fun y _ hf => ?_), here_modify mild_open (s := s) rfl rfl hh⟩
    unfold opened
    split
    next hi => exact ⟨(fun hc => by cases hc), fun _ => by rw [hf.1 hi]; exact Nat.zero_le _⟩
    · exact hf
  | stamp i t =>
    refine ⟨recs_modify hr (fun y _ hf => ?_), here_modify (mild_stamp t) (s := s) rfl rfl hh⟩
    split <;> exact hf
  | send i n =>
    simp only [step]
    cases hx : s.slots[i]? with
    | none => exact ⟨hr, hh⟩
    | some x =>
      simp only
      split
      · refine ⟨recs_modify hr (fun y _ hf => ?_), here_modify (mild_send n) (s := s) rfl rfl hh⟩
        exact ⟨hf.1, fun hu => Nat.le_trans (hf.2 hu) (Nat.le_add_right ..)⟩
      · exact ⟨hr, hh⟩
  | close i =>
    refine ⟨recs_modify hr (fun y _ hf => ?_), here_modify mild_close (s := s) rfl rfl hh⟩
    split
    next hl => exact ⟨(fun hc => by cases hc), fun _ => hf.2 (by rw [live_used hl]; decide)⟩
    · exact hf
  | die i => exact ⟨recs_modify hr (fun y _ hf => hf), here_modify mild_die (s := s) rfl rfl hh⟩
  | pass t =>
    simp only [step]
    split
    · exact ⟨hr, fun j g hj => by cases hj⟩
    · exact ⟨hr, hh⟩
  | turn => exact good_turn ⟨hr, hh⟩
  | quit => exact ⟨hr, fun j g hj => by cases hj⟩

theorem good_init (n : Nat) (input : Bool) : Good { slots := List.replicate n {}, input := input } := by
  refine ⟨fun i x hx => ?_, fun j g hj => by cases hj⟩
  have := List.eq_of_mem_replicate (List.mem_of_getElem? hx)
  rw [this]
  exact ⟨fun _ => rfl, fun hc => absurd rfl hc⟩

theorem good_run (n : Nat) (input : Bool) (ops : List Op) : Good (run n input ops) := by
  suffices hu : ∀ (ops : List Op) (s : State), Good s → Good (ops.foldl step s) from hu ops _ (good_init n input)
  intro ops
  induction ops with
  | nil => exact fun s h => h
  | cons o ops ih => exact fun s h => ih _ (good_step o h)

/-! ## The counts -/

theorem rest_open {x : Slot} (h : Fine x) : rest (opened x) = rest x := by
  unfold opened
  split
  next hi => simp [rest, hi, h.1 hi]
  · rfl

theorem rest_close (x : Slot) : rest (if x.live then { x with status := .gone, alive := false } else x) = rest x := by
  split
  next hl => simp [rest, live_used hl]
  · rfl

/-- What a step of a connection changes: it adds the same to what is not counted yet and to what was sent. -/
theorem counts_step {s : State} (op : Op) (h : Good s) (hop : op ≠ .turn) (hq : op ≠ .quit) :
    (step s op).total = s.total ∧ ∃ n, (step s op).sent = s.sent + n ∧ gap (step s op) = gap s + n ∧ bound s ≤ bound (step s op) ∧
      (bound (step s op) = bound s ∨ ∃ i g, s.phase = .store i g ∧ op = .send i n) := by
  obtain ⟨hr, hh⟩ := h
  cases op with
  | «open» i =>
    have := quiet (s := s) (t := step s (.open i)) (f := opened) rfl rfl (fun x hx => rest_open (hr i x hx))
    exact ⟨rfl, 0, rfl, this.1, by rw [this.2]; exact Nat.le_refl _, .inl this.2⟩
  | stamp i t =>
    have := quiet (s := s) (t := step s (.stamp i t)) rfl rfl (fun x hx => by split <;> rfl)
    exact ⟨rfl, 0, rfl, this.1, by rw [this.2]; exact Nat.le_refl _, .inl this.2⟩
  | send i n =>
    simp only [step]
    cases hx : s.slots[i]? with
    | none => exact ⟨rfl, 0, rfl, rfl, Nat.le_refl _, .inl rfl⟩
    | some x =>
      simp only
      split
      next hl =>
        have hf := hr i x hx
        have hu : x.status ≠ .invalid := by rw [live_used hl]; decide
        have hk := hf.2 hu
        have hrest : rest { x with down := x.down + n } = rest x + n := by
          unfold rest
          rw [if_neg hu, if_neg hu]
          simp only
          omega
        have h1 := gap_modify (fun x => { x with down := x.down + n }) hx
        refine ⟨rfl, n, rfl, ?_, ?_, ?_⟩
        · unfold gap at h1 ⊢
          simp only at h1 ⊢
          omega
        · unfold bound
          cases hp : s.phase with
          | store j g =>
            simp only
            rw [get_modify]
            by_cases hij : i = j
            · subst hij
              rw [if_pos rfl, hx]
              simp only [Option.map_some]
              omega
            · rw [if_neg hij]
              exact Nat.le_refl _
          | _ => exact Nat.le_refl _
        · cases hp : s.phase with
          | store j g =>
            by_cases hij : i = j
            · exact .inr ⟨j, g, rfl, by rw [hij]⟩
            · left
              unfold bound
              simp only [hp]
              rw [get_modify, if_neg hij]
          | _ => left; unfold bound; simp only [hp]
      · exact ⟨rfl, 0, rfl, rfl, Nat.le_refl _, .inl rfl⟩
  | close i =>
    have := quiet (s := s) (t := step s (.close i)) rfl rfl (fun x hx => rest_close x)
    exact ⟨rfl, 0, rfl, this.1, by rw [this.2]; exact Nat.le_refl _, .inl this.2⟩
  | die i =>
    have := quiet (s := s) (t := step s (.die i)) rfl rfl (fun x hx => rfl)
    exact ⟨rfl, 0, rfl, this.1, by rw [this.2]; exact Nat.le_refl _, .inl this.2⟩
  | pass t =>
    simp only [step]
    split
    next hp =>
      refine ⟨rfl, 0, rfl, rfl, ?_, .inl ?_⟩ <;> (unfold bound; simp only [hp]; try exact Nat.le_refl _)
    · exact ⟨rfl, 0, rfl, rfl, Nat.le_refl _, .inl rfl⟩
  | turn => exact absurd rfl hop
  | quit => exact absurd rfl hq

/-- What a step of the session changes: what is added to the total is what is then due, and it is taken from what is not counted when it is kept. A
record is let go of with what is left of it. -/
theorem counts_turn {s : State} (h : Good s) : (turn s).sent = s.sent ∧
    ((turn s).total + gap (turn s) + bound s = s.total + gap s + bound (turn s) ∨
     ∃ i x, s.phase = .finish i true ∧ s.slots[i]? = some x ∧ (turn s).total = s.total ∧ gap (turn s) + rest x = gap s ∧ bound s = 0 ∧ bound (turn s) = 0) := by
  obtain ⟨hr, hh⟩ := h
  unfold turn
  cases hp : s.phase with
  | idle => exact ⟨rfl, .inl rfl⟩
  | over => exact ⟨rfl, .inl rfl⟩
  | top i =>
    have hb : bound s = 0 := by unfold bound; rw [hp]
    simp only
    cases hx : s.slots[i]? with
    | none => exact ⟨rfl, .inl (by rw [hb]; rfl)⟩
    | some x =>
      simp only
      split
      · exact ⟨rfl, .inl (by rw [hb]; rfl)⟩
      next hinv =>
        split
        next hd =>
          refine ⟨rfl, .inl ?_⟩
          have h1 := gap_modify (fun x => { x with status := .gone }) hx
          have h2 : rest { x with status := .gone } = rest x := by unfold rest; rw [if_neg hinv, if_neg (fun hc => by cases hc)]
          rw [hb]
          unfold gap at h1 ⊢
          simp only [bound] at h1 ⊢
          omega
        · exact ⟨rfl, .inl (by rw [hb]; rfl)⟩
  | look i g =>
    have hb : bound s = 0 := by unfold bound; rw [hp]
    obtain ⟨x, hx, h1, h2⟩ := hh i g (by rw [hp]; rfl)
    simp only [hx]
    split <;> exact ⟨rfl, .inl (by rw [hb]; rfl)⟩
  | check i g =>
    have hb : bound s = 0 := by unfold bound; rw [hp]
    obtain ⟨x, hx, h1, h2⟩ := hh i g (by rw [hp]; rfl)
    have hk := (hr i x hx).2 h1
    refine ⟨rfl, .inl ?_⟩
    have h3 := gap_modify (fun x => if x.down < x.kept then { x with kept := x.down } else x) hx
    have h4 : rest (if x.down < x.kept then { x with kept := x.down } else x) = rest x := by rw [if_neg (by omega)]
    rw [hb]
    unfold gap at h3 ⊢
    simp only [bound] at h3 ⊢
    omega
  | add i g =>
    have hb : bound s = 0 := by unfold bound; rw [hp]
    obtain ⟨x, hx, h1, h2⟩ := hh i g (by rw [hp]; rfl)
    refine ⟨by simp only [hx], .inl ?_⟩
    rw [hb]
    have : rest x = x.down - x.kept := by unfold rest; rw [if_neg h1]
    simp only [bound, hx, gap]
    omega
  | store i g =>
    obtain ⟨x, hx, h1, h2⟩ := hh i g (by rw [hp]; rfl)
    have hb : bound s = rest x := by unfold bound; rw [hp]; simp only [hx]
    refine ⟨rfl, .inl ?_⟩
    have h3 := gap_modify (fun x => { x with kept := x.down }) hx
    have h4 : rest { x with kept := x.down } = 0 := by unfold rest; rw [if_neg h1]; simp
    rw [hb]
    unfold gap at h3 ⊢
    simp only [bound] at h3 ⊢
    omega
  | finish i g =>
    have hb : bound s = 0 := by unfold bound; rw [hp]
    obtain ⟨x, hx, h1, h2⟩ := hh i g (by rw [hp]; rfl)
    simp only
    split
    next hg =>
      subst hg
      refine ⟨rfl, .inr ⟨i, x, rfl, hx, rfl, ?_, hb, rfl⟩⟩
      have h3 := gap_modify (fun x => { x with status := .invalid, kept := 0 }) hx
      have h4 : rest { x with status := .invalid, kept := 0 } = 0 := by unfold rest; rw [if_pos rfl]
      unfold gap at h3 ⊢
      simp only at h3 ⊢
      omega
    · exact ⟨rfl, .inl (by rw [hb]; rfl)⟩

theorem le_sum : ∀ (l : List Nat) {i : Nat} {v : Nat}, l[i]? = some v → v ≤ l.sum
  | [], _, _, h => by simp at h
  | a :: l, 0, v, h => by simp at h; simp [h]
  | a :: l, i + 1, v, h => by
    have := le_sum l (i := i) (v := v) (by simpa using h)
    simp
    omega

theorem bound_le (s : State) : bound s ≤ gap s := by
  unfold bound gap
  cases s.phase with
  | store i g =>
    simp only
    cases hx : s.slots[i]? with
    | none => exact Nat.zero_le _
    | some x => exact le_sum _ (i := i) (by rw [List.getElem?_map, hx]; rfl)
  | _ => exact Nat.zero_le _

theorem over_step {s : State} (op : Op) (h : s.phase = .over) : (step s op).phase = .over ∧ (step s op).total = s.total ∧ s.sent ≤ (step s op).sent := by
  cases op with
  | send i n =>
    simp only [step]
    split
    · exact ⟨h, rfl, Nat.le_refl _⟩
    · split
      · exact ⟨h, rfl, Nat.le_add_right _ _⟩
      · exact ⟨h, rfl, Nat.le_refl _⟩
  | pass t =>
    simp only [step]
    rw [if_neg (by rw [h]; decide)]
    exact ⟨h, rfl, Nat.le_refl _⟩
  | turn =>
    have : step s .turn = s := by simp only [step, turn, h]
    rw [this]
    exact ⟨h, rfl, Nat.le_refl _⟩
  | quit => exact ⟨rfl, rfl, Nat.le_refl _⟩
  | _ => exact ⟨h, rfl, Nat.le_refl _⟩

theorem gap_init (n : Nat) (input : Bool) : gap { slots := List.replicate n {}, input := input } = 0 := by
  unfold gap
  simp [rest]

/-- C99: whatever connections and the session do at the same time, a session never counts more than its connections reported. -/
theorem C99_never_more (n : Nat) (input : Bool) (ops : List Op) : (run n input ops).total ≤ (run n input ops).sent := by
  suffices hu : ∀ (ops : List Op) (s : State), Good s →
      (s.total + gap s ≤ s.sent + bound s ∨ s.phase = .over ∧ s.total ≤ s.sent) →
      (ops.foldl step s).total ≤ (ops.foldl step s).sent by
    refine hu ops { slots := List.replicate n {}, input := input } (good_init n input) (.inl ?_)
    rw [gap_init]
    exact Nat.le_refl _
  intro ops
  induction ops with
  | nil =>
    intro s h h'
    have := bound_le s
    show s.total ≤ s.sent
    omega
  | cons o ops ih =>
    intro s h h'
    refine ih _ (good_step o h) ?_
    have hbl := bound_le s
    rcases h' with h' | ⟨hp, h'⟩
    · by_cases ht : o = .turn
      · subst ht
        left
        obtain ⟨h1, h2 | ⟨i, x, h2, h3, h4, h5, h6, h7⟩⟩ := counts_turn h
        · change (turn s).total + gap (turn s) ≤ (turn s).sent + bound (turn s)
          omega
        · change (turn s).total + gap (turn s) ≤ (turn s).sent + bound (turn s)
          omega
      · by_cases hq : o = .quit
        · subst hq
          refine .inr ⟨rfl, ?_⟩
          show s.total ≤ s.sent
          omega
        · obtain ⟨h1, m, h2, h3, h4, _⟩ := counts_step o h ht hq
          left
          omega
    · obtain ⟨h1, h2, h3⟩ := over_step o hp
      exact .inr ⟨h1, by omega⟩

/-! ## Nothing is lost -/

/-- A step that can lose a count: a connection reports between the two reads of its counter; the session skips the record of a connection that ended, because
it did not report for ten seconds, with something that was not counted; or the session ends. -/
def Loses (s : State) : Op → Prop
  | .send i _ => ∃ g, s.phase = .store i g
  | .turn => ∃ i x, s.phase = .look i true ∧ s.slots[i]? = some x ∧ stale s.now x = true ∧ s.input = false ∧ x.kept < x.down
  | .quit => True
  | _ => False

/-- No step of a history can lose a count. -/
def Keeps : State → List Op → Prop
  | _, [] => True
  | s, o :: ops => ¬ Loses s o ∧ Keeps (step s o) ops

theorem rest_keeps {s t : State} {f : Slot → Slot} {j : Nat} (ht : t.slots = s.slots.modify j f) (hp : t.phase = s.phase)
    (hf : ∀ i, s.phase = .finish i true → ∀ x, s.slots[i]? = some x → rest x = 0)
    (hr : ∀ x, s.slots[j]? = some x → rest (f x) = rest x) :
    ∀ i, t.phase = .finish i true → ∀ x, t.slots[i]? = some x → rest x = 0 := by
  intro i hi x hx
  rw [hp] at hi
  rw [ht, get_modify] at hx
  split at hx
  next hij =>
    subst hij
    cases hy : s.slots[j]? with
    | none => rw [hy] at hx; cases hx
    | some y =>
      rw [hy] at hx
      cases hx
      rw [hr y hy]
      exact hf j hi y hy
  · exact hf i hi x hx

theorem rest_finish {s : State} {o : Op} (h : Good s)
    (hf : ∀ i, s.phase = .finish i true → ∀ x, s.slots[i]? = some x → rest x = 0) (hl : ¬ Loses s o) :
    ∀ i, (step s o).phase = .finish i true → ∀ x, (step s o).slots[i]? = some x → rest x = 0 := by
  obtain ⟨hr, hh⟩ := h
  cases o with
  | «open» i => exact rest_keeps (s := s) (f := opened) rfl rfl hf (fun x hx => rest_open (hr i x hx))
  | stamp i t => exact rest_keeps (s := s) rfl rfl hf (fun x hx => by split <;> rfl)
  | close i => exact rest_keeps (s := s) rfl rfl hf (fun x hx => rest_close x)
  | die i => exact rest_keeps (s := s) rfl rfl hf (fun x hx => rfl)
  | quit => intro i hi; cases hi
  | pass t =>
    simp only [step]
    split
    · intro i hi; cases hi
    · exact hf
  | send j n =>
    intro i hi x hx
    simp only [step] at hi hx
    cases hy : s.slots[j]? with
    | none => simp only [hy] at hi hx; exact hf i hi x hx
    | some y =>
      simp only [hy] at hi hx
      split at hx
      next hlv =>
        rw [if_pos hlv] at hi
        simp only at hi hx
        obtain ⟨z, hz, hz1, hz2⟩ := hh i true (by rw [hi]; rfl)
        by_cases hij : j = i
        · subst hij
          rw [hy] at hz
          cases hz
          have := live_used hlv
          rw [hz2 rfl] at this
          cases this
        · rw [get_modify, if_neg hij] at hx
          exact hf i hi x hx
      next hlv =>
        rw [if_neg hlv] at hi
        exact hf i hi x hx
  | turn =>
    intro i hi x hx
    change (turn s).phase = _ at hi
    change (turn s).slots[i]? = _ at hx
    unfold turn at hi hx
    cases hp : s.phase with
    | idle => simp only [hp] at hi; cases hi
    | over => simp only [hp] at hi; cases hi
    | top j =>
      simp only [hp] at hi
      split at hi
      · cases hi
      · split at hi
        · cases hi
        · split at hi <;> cases hi
    | look j g =>
      simp only [hp] at hi hx
      obtain ⟨z, hz, hz1, hz2⟩ := hh j g (by rw [hp]; rfl)
      simp only [hz] at hi hx
      split at hi
      next hst =>
        rw [if_pos hst] at hx
        cases hi
        simp only at hx
        rw [hz] at hx
        cases hx
        unfold rest
        rw [if_neg hz1]
        by_cases hlt : x.kept < x.down
        · exact absurd ⟨i, x, hp, hz, hst.1, hst.2, hlt⟩ hl
        · omega
      · cases hi
    | check j g => simp only [hp] at hi; cases hi
    | add j g =>
      obtain ⟨z, hz, hz1, hz2⟩ := hh j g (by rw [hp]; rfl)
      simp only [hp, hz] at hi
      cases hi
    | store j g =>
      simp only [hp] at hi hx
      cases hi
      obtain ⟨z, hz, hz1, hz2⟩ := hh i true (by rw [hp]; rfl)
      rw [get_modify, if_pos rfl, hz] at hx
      cases hx
      unfold rest
      rw [if_neg hz1]
      simp
    | finish j g =>
      simp only [hp] at hi
      split at hi <;> cases hi

/-- C99: the session counts exactly what its connections reported once all connections have ended and been seen to end, if no step could lose a count.

Partial: in general counts are lost, see `C99_race_fails`, `C99_stall_fails` and `C99_end_fails`. -/
theorem C99_exact_partial (n : Nat) (input : Bool) (ops : List Op) (hk : Keeps { slots := List.replicate n {}, input := input } ops)
    (hi : (run n input ops).phase = .idle) (hz : ∀ x ∈ (run n input ops).slots, x.status = .invalid) :
    (run n input ops).total = (run n input ops).sent := by
  suffices hu : ∀ (ops : List Op) (s : State), Good s → s.total + gap s = s.sent + bound s →
      (∀ i, s.phase = .finish i true → ∀ x, s.slots[i]? = some x → rest x = 0) → Keeps s ops →
      (ops.foldl step s).total + gap (ops.foldl step s) = (ops.foldl step s).sent + bound (ops.foldl step s) by
    have h := hu ops { slots := List.replicate n {}, input := input } (good_init n input) (by rw [gap_init]; rfl)
      (fun i h => by cases h) hk
    change (run n input ops).total + gap (run n input ops) = (run n input ops).sent + bound (run n input ops) at h
    have hb : bound (run n input ops) = 0 := by unfold bound; rw [hi]
    have hg : gap (run n input ops) = 0 := by
      unfold gap
      rw [List.sum_eq_zero_iff_forall_eq_nat]
      intro v hv
      obtain ⟨x, hx, rfl⟩ := List.mem_map.mp hv
      unfold rest
      rw [if_pos (hz x hx)]
    omega
  intro ops
  induction ops with
  | nil => exact fun s _ h _ _ => h
  | cons o ops ih =>
    intro s h h' hf hk
    refine ih _ (good_step o h) ?_ ?_ hk.2
    · by_cases ht : o = .turn
      · subst ht
        change (turn s).total + gap (turn s) = (turn s).sent + bound (turn s)
        obtain ⟨h1, h2 | ⟨i, x, h2, h3, h4, h5, h6, h7⟩⟩ := counts_turn h
        · omega
        · have := hf i h2 x h3
          omega
      · by_cases hq : o = .quit
        · subst hq
          exact absurd trivial hk.1
        · obtain ⟨h1, m, h2, h3, h4, h5 | ⟨i, g, h5, rfl⟩⟩ := counts_step o h ht hq
          · omega
          · exact absurd ⟨g, h5⟩ hk.1
    · exact rest_finish h hf hk.1

/-- Two connections, one of which takes the place of the first in the table, are counted in full. -/
def calm : List Op :=
  [.open 0, .stamp 0 100, .send 0 500, .open 1, .stamp 1 100, .pass 100] ++ List.replicate 13 .turn ++
  [.send 0 30, .send 1 7, .close 0, .pass 101] ++ List.replicate 13 .turn ++
  [.open 0, .stamp 0 102, .send 0 11, .close 0, .close 1, .pass 102] ++ List.replicate 13 .turn

instance (s : State) (o : Op) : Decidable (Loses s o) :=
  match o with
  | .send i _ =>
    match h : s.phase with
    | .store j g => if hj : j = i then .isTrue ⟨g, by rw [h, hj]⟩ else .isFalse (fun ⟨g, hg⟩ => by rw [h] at hg; cases hg; exact hj rfl)
    | .idle | .top _ | .look _ _ | .check _ _ | .add _ _ | .finish _ _ | .over => .isFalse (fun ⟨g, hg⟩ => by rw [h] at hg; cases hg)
  | .turn =>
    match h : s.phase with
    | .look i true =>
      match hx : s.slots[i]? with
      | none => .isFalse (fun ⟨j, x, h1, h2, _⟩ => by rw [h] at h1; cases h1; rw [hx] at h2; cases h2)
      | some x =>
        if hc : stale s.now x = true ∧ s.input = false ∧ x.kept < x.down then .isTrue ⟨i, x, h, hx, hc⟩
        else .isFalse (fun ⟨j, y, h1, h2, h3⟩ => by rw [h] at h1; cases h1; rw [hx] at h2; cases h2; exact hc h3)
    | .look i false | .idle | .top _ | .store _ _ | .check _ _ | .add _ _ | .finish _ _ | .over =>
      .isFalse (fun ⟨j, x, h1, _⟩ => by rw [h] at h1; cases h1)
  | .quit => .isTrue trivial
  | .open _ | .stamp _ _ | .close _ | .die _ | .pass _ => .isFalse id

instance keepsDec : (s : State) → (ops : List Op) → Decidable (Keeps s ops)
  | _, [] => .isTrue trivial
  | s, o :: ops =>
    match (inferInstance : Decidable (Loses s o)), keepsDec (step s o) ops with
    | .isTrue h, _ => .isFalse (fun h' => h'.1 h)
    | _, .isFalse h => .isFalse (fun h' => h h'.2)
    | .isFalse h, .isTrue h' => .isTrue ⟨h, h'⟩

example : Keeps { slots := List.replicate 2 {}, input := false } calm ∧ (run 2 false calm).phase = .idle ∧
    (∀ x ∈ (run 2 false calm).slots, x.status = .invalid) ∧ (run 2 false calm).total = 548 := by decide +kernel

/-- C99, refuted in general: what a connection reports between the two times the session reads its counter is never counted. -/
theorem C99_race_fails : ∃ ops, (∀ o ∈ ops, o ≠ .quit) ∧ (run 1 false ops).phase = .idle ∧ (∀ x ∈ (run 1 false ops).slots, x.status = .invalid) ∧
    (run 1 false ops).total < (run 1 false ops).sent :=
  ⟨[.open 0, .stamp 0 100, .send 0 500, .pass 100, .turn, .turn, .turn, .turn, .send 0 70, .turn, .turn, .turn, .close 0, .pass 101] ++ List.replicate 7 .turn,
    by simp, by decide +kernel⟩

/-- C99, refuted in general: a connection that ended while the session made no pass for more than ten seconds (a trigger that is slow to answer) is not
counted, although no connection reported at the wrong time. -/
theorem C99_stall_fails : ∃ ops, (∀ o ∈ ops, o ≠ .quit) ∧ (run 1 false ops).phase = .idle ∧ (∀ x ∈ (run 1 false ops).slots, x.status = .invalid) ∧
    (run 1 false ops).total = 0 ∧ (run 1 false ops).sent = 500 :=
  ⟨[.open 0, .stamp 0 100, .send 0 500, .close 0, .pass 111] ++ List.replicate 7 .turn, by simp, by decide +kernel⟩

/-- C99, refuted in general: what was reported after the last pass is not counted when the session ends. -/
theorem C99_end_fails : ∃ ops, (run 1 false ops).phase = .over ∧ (run 1 false ops).total = 0 ∧ (run 1 false ops).sent = 500 :=
  ⟨[.open 0, .stamp 0 100, .send 0 500, .quit], by decide +kernel⟩

/-- Sessions of inputs lose nothing to a stall. -/
example : ¬ Loses { slots := [{ status := .gone, down := 5 }], phase := .look 0 true, now := 100, input := true } .turn := by decide

end Verif.Sess
