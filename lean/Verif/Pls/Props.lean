import Verif.Pls.Lemmas

/-!
# C115: playlists as input
-/

namespace Verif.Pls
open Verif

/-- C115, the list: whatever was loaded before, a playlist is read as its entries, in order. -/
theorem C115_read (l : List Spec.Item) (hok : ∀ i ∈ l, i.Ok) (wall : Nat) (p : Pls) :
    (load wall (some (Spec.text l)) p).entries = (Spec.entries none l).map (·.1) := (lim_load wall l p hok).ents

/-- C115, no failure: from any state, the entry chosen is one of the list, and the input only ends if the list is empty. -/
theorem C115_choice (l : List Spec.Item) (hok : ∀ i ∈ l, i.Ok) (wall : Nat) (s : St) :
    (Spec.entries none l = [] → turn wall (some (Spec.text l)) s = none) ∧
    (Spec.entries none l ≠ [] → ∃ s' w, turn wall (some (Spec.text l)) s = some (s', w) ∧ s'.index < (Spec.entries none l).length) := by
  have h := lim_load wall l s.pls hok
  generalize hp : load wall (some (Spec.text l)) s.pls = p at h
  generalize Spec.entries none l = es at h
  have hlen : p.entries.length = es.length := by rw [h.ents, List.length_map]
  have hclip : ∀ i, i < es.length → clip p i < es.length := by
    intro i hi
    unfold clip
    have h1 : clipMin p.min i < es.length := by
      cases hm : p.min with
      | none => exact hi
      | some m =>
        obtain ⟨s, ha, _⟩ := h.lo1 m hm
        have := at_lt ha
        simp only [clipMin]
        split <;> omega
    generalize clipMin p.min i = k at h1
    cases hm : p.max with
    | none => exact h1
    | some m =>
      simp only [clipMax]
      split <;> omega
  unfold turn
  simp only [hp]
  constructor
  · intro he
    rw [if_pos (by rw [h.ents, he]; rfl)]
  · intro he
    have hpos : 0 < es.length := List.length_pos_iff.2 he
    rw [if_neg (by intro e; rw [e] at hlen; simp at hlen; omega)]
    by_cases c : p.entries.length ≤ s.index + 1
    · rw [if_pos c]; exact ⟨_, _, rfl, hclip 0 hpos⟩
    · rw [if_neg c]; exact ⟨_, _, rfl, hclip _ (by omega)⟩

/-- C115, the schedule, for playlists with times that go up: from any state, the entry chosen may play at this time. It is also required that the first entry
is not to start later, as then no entry may play (`C115_first_fails`). -/
theorem C115_schedule_partial (l : List Spec.Item) (hok : ∀ i ∈ l, i.Ok) (wall : Nat) (s s' : St) (w : Bool) (hord : Spec.Ordered (Spec.entries none l))
    (h0 : ∀ m, Spec.At (Spec.entries none l) 0 m → m ≤ wall) (ht : turn wall (some (Spec.text l)) s = some (s', w)) :
    Spec.Due (Spec.entries none l) wall s'.index := by
  have h := lim_load wall l s.pls hok
  have hlen : (load wall (some (Spec.text l)) s.pls).entries.length = (Spec.entries none l).length := by rw [h.ents, List.length_map]
  unfold turn at ht
  simp only at ht
  by_cases e : (load wall (some (Spec.text l)) s.pls).entries = []
  · rw [if_pos e] at ht; cases ht
  · rw [if_neg e] at ht
    have hpos := List.length_pos_iff.2 e
    by_cases c : (load wall (some (Spec.text l)) s.pls).entries.length ≤ s.index + 1
    · rw [if_pos c] at ht
      cases ht
      exact clip_due h hord h0 (by omega)
    · rw [if_neg c] at ht
      cases ht
      exact clip_due h hord h0 (by omega)

/-- C115, the next entry: if the entry after the last one may play, it is the one chosen; after the last of the list it is the first, if that may play. -/
theorem C115_next (l : List Spec.Item) (hok : ∀ i ∈ l, i.Ok) (wall : Nat) (s : St)
    (hd : Spec.Due (Spec.entries none l) wall (if s.index + 1 < (Spec.entries none l).length then s.index + 1 else 0)) :
    ∃ s' w, turn wall (some (Spec.text l)) s = some (s', w)
      ∧ s'.index = if s.index + 1 < (Spec.entries none l).length then s.index + 1 else 0 := by
  have h := lim_load wall l s.pls hok
  generalize hp : load wall (some (Spec.text l)) s.pls = p at h
  generalize Spec.entries none l = es at h hd
  have hlen : p.entries.length = es.length := by rw [h.ents, List.length_map]
  have hclip : ∀ i, Spec.Due es wall i → clip p i = i := by
    intro i hi
    have hmin : clipMin p.min i = i := by
      cases hm : p.min with
      | none => rfl
      | some m =>
        obtain ⟨s, ha, hs⟩ := h.lo1 m hm
        have := (hi.2 m s ha).1 hs
        simp only [clipMin]
        rw [if_neg (by omega)]
    unfold clip
    rw [hmin]
    cases hm : p.max with
    | none => rfl
    | some m =>
      obtain ⟨hr, hb⟩ := h.hi1 m hm
      have := (hi.2 _ _ hb).2 hr
      simp only [clipMax]
      rw [if_neg (by omega)]
  have hne : p.entries ≠ [] := by
    intro e; rw [e] at hlen; have := hd.1; simp only [List.length_nil] at hlen; omega
  unfold turn
  simp only [hp]
  rw [if_neg hne]
  by_cases c : s.index + 1 < es.length
  · rw [if_pos c] at hd ⊢
    rw [if_neg (by omega)]
    exact ⟨_, _, rfl, hclip _ hd⟩
  · rw [if_neg c] at hd ⊢
    rw [if_pos (by omega)]
    exact ⟨_, _, rfl, hclip _ hd⟩

/-- C115, while playing, for playlists with times that go up, on the day an entry was started: it is stopped at the first look at which it may not play any more,
and not before. For the end of the day see `C115_midnight_fails`. -/
theorem C115_stop_partial (l : List Spec.Item) (hok : ∀ i ∈ l, i.Ok) (before now : Nat) (hnow : before ≤ now ∧ now < 1440) (p : Pls) (s : St)
    (hord : Spec.Ordered (Spec.entries none l)) (h0 : ∀ m, Spec.At (Spec.entries none l) 0 m → m ≤ before)
    (hs : s.pls = load before (some (Spec.text l)) p) (hdue : Spec.Due (Spec.entries none l) before s.index) :
    (tick now (some (Spec.text l)) s).2 = true ↔ ¬ Spec.Due (Spec.entries none l) now s.index := by
  have hb := lim_load before l p hok
  rw [← hs] at hb
  have hn := lim_load now l s.pls hok
  generalize hq : load now (some (Spec.text l)) s.pls = q at hn
  generalize Spec.entries none l = es at hb hn hord h0 hdue
  -- limits at a time at which the entry may play
  have keep : ∀ (t : Nat) (r : Pls), Lim t es r → Spec.Due es t s.index →
      (below r.min s.index || above r.max s.index) = false := by
    intro t r hr hd
    rw [Bool.or_eq_false_iff]
    constructor
    · cases hm : r.min with
      | none => rfl
      | some m =>
        obtain ⟨x, ha, hx⟩ := hr.lo1 m hm
        have := (hd.2 m x ha).1 hx
        simp only [below, decide_eq_false_iff_not]
        omega
    · cases hm : r.max with
      | none => rfl
      | some m =>
        obtain ⟨h1, h2⟩ := hr.hi1 m hm
        have := (hd.2 _ _ h2).2 h1
        simp only [above, decide_eq_false_iff_not]
        omega
  constructor
  · intro ht hd
    unfold tick at ht
    by_cases c : s.pls.reloadOn = 0xFFFF
    · rw [if_pos c] at ht; cases ht
    · rw [if_neg c] at ht
      simp only [hq] at ht
      by_cases d : s.pls.reloadOn ≤ now
      · rw [if_pos d, keep now q hn hd] at ht; cases ht
      · rw [if_neg d, keep before s.pls hb hdue] at ht; cases ht
  · intro hd
    -- an entry that was to start in between
    obtain ⟨j, x, hj, hx⟩ : ∃ j x, Spec.At es j x ∧ before < x ∧ x ≤ now ∧ s.index < j := by
      apply Classical.byContradiction
      intro hno
      apply hd
      refine ⟨hdue.1, ?_⟩
      intro j x hj
      have h1 := hdue.2 j x hj
      constructor
      · intro hxn
        rcases Nat.lt_or_ge before x with c | c
        · exact absurd ⟨j, x, hj, c, hxn, h1.2 c⟩ hno
        · exact h1.1 c
      · intro hxn
        exact h1.2 (by omega)
    have hj0 : 0 < j := by omega
    obtain ⟨m, hm, hmj⟩ := hb.hi2 j x hj hx.1 hj0
    obtain ⟨hr1, hr2⟩ := hb.hi1 m hm
    have hrel : s.pls.reloadOn ≤ x := by
      rcases Nat.lt_or_ge (m + 1) j with c | c
      · exact hord _ _ _ _ c hr2 hj
      · have e : m + 1 = j := by omega
        rw [e] at hr2
        have := at_unique hr2 hj
        omega
    obtain ⟨k, hk, hjk⟩ := hn.lo2 j x hj hx.2.1
    unfold tick
    rw [if_neg (by omega)]
    simp only [hq]
    rw [if_pos (by omega), hk]
    simp only [below]
    rw [decide_eq_true (by omega), Bool.true_or]

/-- C115, while playing, with any number of looks in between at which the entry might go on: the next look stops it exactly if it may not play any more. -/
theorem C115_stop_looks_partial (l : List Spec.Item) (hok : ∀ i ∈ l, i.Ok) (now : Nat) (hday : now < 1440) (hord : Spec.Ordered (Spec.entries none l))
    (looks : List Nat) (before : Nat) (p : Pls) (s : St) (hsort : (before :: looks ++ [now]).Pairwise (· ≤ ·))
    (h0 : ∀ m, Spec.At (Spec.entries none l) 0 m → m ≤ before) (hs : s.pls = load before (some (Spec.text l)) p)
    (hdue : ∀ t ∈ before :: looks, Spec.Due (Spec.entries none l) t s.index) :
    (tick now (some (Spec.text l)) (looks.foldl (fun s t => (tick t (some (Spec.text l)) s).1) s)).2 = true ↔ ¬ Spec.Due (Spec.entries none l) now s.index := by
  induction looks generalizing before p s with
  | nil =>
    have : before ≤ now := by
      have := (List.pairwise_cons.1 hsort).1 now (by simp)
      exact this
    exact C115_stop_partial l hok before now ⟨this, hday⟩ p s hord h0 hs (hdue before (by simp))
  | cons t rest ih =>
    simp only [List.foldl_cons]
    obtain ⟨hb, hrest⟩ := List.pairwise_cons.1 (show (before :: (t :: rest ++ [now])).Pairwise (· ≤ ·) from hsort)
    have hrest' : (t :: (rest ++ [now])).Pairwise (· ≤ ·) := hrest
    have hbt : before ≤ t := hb t (by simp)
    have hskip : (before :: rest ++ [now]).Pairwise (· ≤ ·) :=
      List.pairwise_cons.2 ⟨fun x hx => hb x (List.mem_cons_of_mem _ hx), (List.pairwise_cons.1 hrest').2⟩
    have hdue' : ∀ x ∈ before :: rest, Spec.Due (Spec.entries none l) x s.index := by
      intro x hx
      apply hdue
      rcases List.mem_cons.1 hx with h | h <;> simp [h]
    unfold tick
    by_cases c : s.pls.reloadOn = 0xFFFF
    · rw [if_pos c]
      exact ih before p s hskip h0 hs hdue'
    · rw [if_neg c]
      by_cases d : s.pls.reloadOn ≤ t
      · simp only [if_pos d]
        exact ih t s.pls { s with pls := load t (some (Spec.text l)) s.pls } hrest' (fun m hm => Nat.le_trans (h0 m hm) hbt) rfl
          (fun x hx => hdue x (List.mem_cons_of_mem _ hx))
      · simp only [if_neg d]
        exact ih before p s hskip h0 hs hdue'

/-- One turn after another at the times given, with the outcomes of starting the entries; the entries played and whether there was a wait before each. -/
def plays (file : Bytes) : List (Nat × Bool) → St → List (Nat × Bool)
  | [], _ => []
  | (wall, ok) :: t, s =>
    match turn wall (some file) s with
    | none => []
    | some (s', w) => (s'.index, w) :: plays file t (started ok s')

/-- A look at the first entries of a playlist without times. -/
theorem due_all {es : List (Bytes × Option Nat)} (h : ∀ j s, ¬ Spec.At es j s) (w : Nat) {i : Nat} (hi : i < es.length) : Spec.Due es w i :=
  ⟨hi, fun j s hj => absurd hj (h j s)⟩

theorem plays_from (l : List Spec.Item) (hok : ∀ i ∈ l, i.Ok) (hne : Spec.entries none l ≠ []) (hno : ∀ j s, ¬ Spec.At (Spec.entries none l) j s) :
    ∀ (ev : List (Nat × Bool)) (s : St) (k : Nat), s.index + 1 = k % (Spec.entries none l).length ∨ ((Spec.entries none l).length ≤ s.index + 1 ∧ k % (Spec.entries none l).length = 0) →
    (plays (Spec.text l) ev s).map (·.1) = (List.range' k ev.length).map (· % (Spec.entries none l).length) := by
  have hpos := List.length_pos_iff.2 hne
  intro ev
  induction ev with
  | nil => intro s k _; rfl
  | cons e t ih =>
    intro s k hk
    obtain ⟨wall, ok⟩ := e
    have hmod := Nat.mod_lt k hpos
    have htarget : (if s.index + 1 < (Spec.entries none l).length then s.index + 1 else 0) = k % (Spec.entries none l).length := by
      split <;> omega
    obtain ⟨s', w, h1, h2⟩ := C115_next l hok wall s (by rw [htarget]; exact due_all hno wall hmod)
    rw [htarget] at h2
    simp only [plays, h1, List.map_cons, List.length_cons, List.range'_succ, h2]
    congr 1
    apply ih
    show s'.index + 1 = _ ∨ (_ ≤ s'.index + 1 ∧ _)
    rw [h2]
    rcases Nat.lt_or_ge (k % (Spec.entries none l).length + 1) (Spec.entries none l).length with c | c
    · left
      rw [Nat.add_mod, Nat.mod_eq_of_lt (a := 1) (by omega), Nat.mod_eq_of_lt c]
    · right
      refine ⟨c, ?_⟩
      have e : k % (Spec.entries none l).length + 1 = (Spec.entries none l).length := by omega
      rw [← Nat.mod_add_mod, e, Nat.mod_self]

/-- C115, order: without times, the entries are played in order, over and over, whatever the time of day and whichever of them can be started. -/
theorem C115_order (l : List Spec.Item) (hok : ∀ i ∈ l, i.Ok) (hne : Spec.entries none l ≠ []) (hno : ∀ j s, ¬ Spec.At (Spec.entries none l) j s)
    (hlen : (Spec.entries none l).length < 4294967295) (ev : List (Nat × Bool)) :
    (plays (Spec.text l) ev boot).map (·.1) = (List.range ev.length).map (· % (Spec.entries none l).length) := by
  rw [List.range_eq_range']
  apply plays_from l hok hne hno ev boot 0
  right
  exact ⟨by show _ ≤ 0xFFFFFFFE + 1; omega, Nat.zero_mod _⟩

theorem turn_seen {wall : Nat} {file : Option Bytes} {s s' : St} {w : Bool} (h : turn wall file s = some (s', w)) :
    if s'.pls.entries.length ≤ s.index + 1 then s'.seen = false ∧ w = !s.seen else s'.seen = s.seen ∧ w = false := by
  unfold turn at h
  simp only at h
  by_cases e : (load wall file s.pls).entries = []
  · rw [if_pos e] at h; cases h
  · rw [if_neg e] at h
    by_cases c : (load wall file s.pls).entries.length ≤ s.index + 1
    · rw [if_pos c] at h
      cases h
      rw [if_pos c]
      exact ⟨rfl, rfl⟩
    · rw [if_neg c] at h
      cases h
      rw [if_neg c]
      exact ⟨rfl, rfl⟩

theorem turn_pls {wall : Nat} {file : Option Bytes} {s s' : St} {w : Bool} (h : turn wall file s = some (s', w)) : s'.pls = load wall file s.pls := by
  unfold turn at h
  simp only at h
  by_cases e : (load wall file s.pls).entries = []
  · rw [if_pos e] at h; cases h
  · rw [if_neg e] at h
    by_cases c : (load wall file s.pls).entries.length ≤ s.index + 1
    · rw [if_pos c] at h; cases h; rfl
    · rw [if_neg c] at h; cases h; rfl

theorem waits_from (l : List Spec.Item) (hok : ∀ i ∈ l, i.Ok) (hne : Spec.entries none l ≠ []) (hno : ∀ j s, ¬ Spec.At (Spec.entries none l) j s) :
    ∀ (ev : List (Nat × Bool)) (s : St) (k : Nat), (∀ e ∈ ev, e.2 = false) → (s.seen = decide (k = 0)) →
    s.index + 1 = k % (Spec.entries none l).length ∧ k % (Spec.entries none l).length ≠ 0 ∨ ((Spec.entries none l).length ≤ s.index + 1 ∧ k % (Spec.entries none l).length = 0) →
    (plays (Spec.text l) ev s).map (·.2) = (List.range' k ev.length).map (fun k => decide (0 < k ∧ k % (Spec.entries none l).length = 0)) := by
  have hpos := List.length_pos_iff.2 hne
  intro ev
  induction ev with
  | nil => intro s k _ _ _; rfl
  | cons e t ih =>
    intro s k hev hseen hk
    obtain ⟨wall, ok⟩ := e
    obtain rfl : ok = false := hev (wall, ok) (by simp)
    have hmod := Nat.mod_lt k hpos
    have htarget : (if s.index + 1 < (Spec.entries none l).length then s.index + 1 else 0) = k % (Spec.entries none l).length := by
      split <;> omega
    obtain ⟨s', w, h1, h2⟩ := C115_next l hok wall s (by rw [htarget]; exact due_all hno wall hmod)
    rw [htarget] at h2
    have h3 := turn_seen h1
    have hlen : s'.pls.entries.length = (Spec.entries none l).length := by
      rw [turn_pls h1, C115_read l hok, List.length_map]
    rw [hlen] at h3
    have h4 : s'.seen = false ∧ w = decide (0 < k ∧ k % (Spec.entries none l).length = 0) := by
      by_cases c : (Spec.entries none l).length ≤ s.index + 1
      · rw [if_pos c] at h3
        refine ⟨h3.1, ?_⟩
        have hz : k % (Spec.entries none l).length = 0 := by omega
        rw [h3.2, hseen]
        by_cases hk0 : k = 0
        · subst hk0; simp
        · simp [hz, hk0, Nat.pos_of_ne_zero hk0]
      · rw [if_neg c] at h3
        have hz : k % (Spec.entries none l).length ≠ 0 := by omega
        have hk0 : k ≠ 0 := fun e => hz (by rw [e, Nat.zero_mod])
        refine ⟨by rw [h3.1, hseen]; simp [hk0], ?_⟩
        rw [h3.2]
        simp [hz]
    simp only [plays, h1, List.map_cons, List.length_cons, List.range'_succ, h4.2]
    congr 1
    apply ih
    · intro e he; exact hev e (by simp [he])
    · show (s'.seen || false) = _
      rw [h4.1]
      simp
    · show s'.index + 1 = _ ∧ _ ∨ (_ ≤ s'.index + 1 ∧ _)
      rw [h2]
      rcases Nat.lt_or_ge (k % (Spec.entries none l).length + 1) (Spec.entries none l).length with c | c
      · left
        have : (k + 1) % (Spec.entries none l).length = k % (Spec.entries none l).length + 1 := by
          rw [← Nat.mod_add_mod, Nat.mod_eq_of_lt c]
        omega
      · right
        refine ⟨c, ?_⟩
        have e : k % (Spec.entries none l).length + 1 = (Spec.entries none l).length := by omega
        rw [← Nat.mod_add_mod, e, Nat.mod_self]

/-- C115, no busy waiting, without times: when no entry can be started, the input waits once each time it has tried all of them. With times see
`C115_spin_fails`. -/
theorem C115_wait_partial (l : List Spec.Item) (hok : ∀ i ∈ l, i.Ok) (hne : Spec.entries none l ≠ []) (hno : ∀ j s, ¬ Spec.At (Spec.entries none l) j s)
    (hlen : (Spec.entries none l).length < 4294967295) (ev : List (Nat × Bool)) (hev : ∀ e ∈ ev, e.2 = false) :
    (plays (Spec.text l) ev boot).map (·.2) = (List.range ev.length).map (fun k => decide (0 < k ∧ k % (Spec.entries none l).length = 0)) := by
  rw [List.range_eq_range']
  apply waits_from l hok hne hno ev boot 0 hev rfl
  right
  exact ⟨by show _ ≤ 0xFFFFFFFE + 1; omega, Nat.zero_mod _⟩

/-! ## Cases -/

/-- Two entries, one for the day and one for the evening. -/
def day : List Spec.Item := [.note [0x23, 0x41], .time 0 0, .entry [65], .note [], .time 20 0, .entry [66]]

/-- Three entries without times. -/
def plain : List Spec.Item := [.entry [65], .note [0x23], .entry [66], .entry [67]]

/-- An entry with a time is in the list of times. -/
theorem at_times {l : List (Bytes × Option Nat)} {j s : Nat} (h : Spec.At l j s) : (l.map (·.2))[j]? = some (some s) := by
  obtain ⟨n, h⟩ := h
  rw [List.getElem?_map, h]
  rfl

theorem day_ok : ∀ i ∈ day, i.Ok := by
  intro i hi
  simp only [day, List.mem_cons, List.not_mem_nil, or_false] at hi
  rcases hi with rfl | rfl | rfl | rfl | rfl | rfl <;> simp [Spec.Item.Ok, Spec.key]

theorem day_ordered : Spec.Ordered (Spec.entries none day) := by
  intro i j s s' hij hi hj
  have h1 := at_lt hj
  have h2 : j < 2 := h1
  have e1 : j = 1 := by omega
  have e0 : i = 0 := by omega
  subst e1 e0
  have a := at_times hi
  have b := at_times hj
  simp [Spec.entries, day] at a b
  omega

/-- By day the first entry is played, in the evening the second one, and at eight the first one is stopped. -/
example : (turn 720 (some (Spec.text day)) boot).map (fun r => r.1.index) = some 0
    ∧ (turn 1230 (some (Spec.text day)) boot).map (fun r => r.1.index) = some 1
    ∧ ((turn 720 (some (Spec.text day)) boot).map fun r => [(tick 1199 (some (Spec.text day)) r.1).2, (tick 1200 (some (Spec.text day)) r.1).2])
      = some [false, true] := by decide +kernel

/-- The same with looks in between. -/
example : ((turn 720 (some (Spec.text day)) boot).map fun r =>
      let s := [800, 900, 1100].foldl (fun s t => (tick t (some (Spec.text day)) s).1) r.1
      [(tick 1199 (some (Spec.text day)) s).2, (tick 1210 (some (Spec.text day)) s).2]) = some [false, true] := by decide +kernel

/-- The hypotheses are met by this playlist at noon. -/
example : (∀ i ∈ day, i.Ok) ∧ Spec.Ordered (Spec.entries none day) ∧ (∀ m, Spec.At (Spec.entries none day) 0 m → m ≤ 720)
    ∧ Spec.Due (Spec.entries none day) 720 0 ∧ ¬ Spec.Due (Spec.entries none day) 1200 0 := by
  refine ⟨day_ok, day_ordered, ?_, ⟨by decide, ?_⟩, ?_⟩
  · intro m hm
    have a := at_times hm
    simp [Spec.entries, day] at a
    omega
  · intro j s hj
    have h1 := at_lt hj
    have h2 : j < 2 := h1
    have a := at_times hj
    rcases (by omega : j = 0 ∨ j = 1) with rfl | rfl <;> simp [Spec.entries, day] at a <;> omega
  · intro h
    have := (h.2 1 1200 ⟨[66], rfl⟩).1 (by decide)
    omega

/-- Entries without times: in order, with a wait after each round in which none could be started. -/
example : (∀ j s, ¬ Spec.At (Spec.entries none plain) j s)
    ∧ plays (Spec.text plain) [(5, false), (5, false), (6, false), (7, true), (8, false), (9, false), (10, false)] boot
      = [(0, false), (1, false), (2, false), (0, true), (1, false), (2, false), (0, false)] := by
  refine ⟨?_, by decide +kernel⟩
  intro j s hj
  have h1 := at_lt hj
  have h2 : j < 3 := h1
  have a := at_times hj
  rcases (by omega : j = 0 ∨ j = 1 ∨ j = 2) with rfl | rfl | rfl <;> simp [Spec.entries, plain] at a

/-! ## What the code does not do -/

/-- A first entry that is to start at eight in the evening is played at noon. -/
theorem C115_first_fails : (turn 720 (some (Spec.text [.time 20 0, .entry [65]])) boot).map (fun r => r.1.index) = some 0
    ∧ ¬ Spec.Due (Spec.entries none [.time 20 0, .entry [65]]) 720 0 := by
  refine ⟨by decide +kernel, fun h => ?_⟩
  have := (h.2 0 1200 ⟨[65], rfl⟩).2 (by decide)
  omega

/-- When the playlist cannot be opened for a moment, the old entries are used without their times: at noon the entry for the evening is played. -/
theorem C115_unread_fails : ((turn 720 (some (Spec.text day)) boot).bind fun r => (turn 720 none (started true r.1)).map fun r => r.1.index) = some 1
    ∧ ¬ Spec.Due (Spec.entries none day) 720 1 := by
  refine ⟨by decide +kernel, fun h => ?_⟩
  have := (h.2 1 1200 ⟨[66], rfl⟩).2 (by decide)
  omega

/-- A last line without an end of line is not played. -/
theorem C115_last_fails : (load 720 (some [65, 10, 66]) empty).entries = [[65]] := by decide +kernel

/-- A carriage return becomes part of the name. -/
theorem C115_cr_fails : (load 720 (some [65, 13, 10]) empty).entries = [[65, 13]] := by decide +kernel

/-- With times, when the entry for now cannot be started, it is tried again and again without any wait. -/
theorem C115_spin_fails : ∀ n, plays (Spec.text day) (List.replicate (n + 1) (720, false)) boot = List.replicate (n + 1) (0, false) := by
  have hs : ∃ s1, turn 720 (some (Spec.text day)) boot = some (s1, false) ∧ s1.index = 0
      ∧ turn 720 (some (Spec.text day)) (started false s1) = some (started false s1, false) ∧ (started false s1).index = 0
      ∧ started false (started false s1) = started false s1 := by
    refine ⟨((turn 720 (some (Spec.text day)) boot).getD (boot, false)).1, ?_⟩
    decide +kernel
  obtain ⟨s1, h1, h2, h3, h4, h5⟩ := hs
  have rep : ∀ n, plays (Spec.text day) (List.replicate n (720, false)) (started false s1) = List.replicate n (0, false) := by
    intro n
    induction n with
    | zero => rfl
    | succ n ih => simp only [List.replicate_succ, plays, h3, h4, h5, ih]
  intro n
  simp only [List.replicate_succ, plays, h1, h2, rep]

/-- Before the next time, the last entry is repeated instead of starting again. -/
theorem C115_repeat_fails : (plays (Spec.text [.time 0 0, .entry [65], .entry [66], .time 20 0, .entry [67]]) (List.replicate 5 (720, true)) boot).map (·.1)
    = [0, 1, 1, 1, 1] := by decide +kernel

/-- An entry that plays over midnight is not stopped when the first entry is to start in the morning. -/
theorem C115_midnight_fails : ∃ s, turn 1380 (some (Spec.text [.time 6 0, .entry [65], .time 22 0, .entry [66]])) boot = some (s, false) ∧ s.index = 1
    ∧ (∀ now file, tick now file s = (s, false))
    ∧ ¬ Spec.Due (Spec.entries none [.time 6 0, .entry [65], .time 22 0, .entry [66]]) 480 1 := by
  refine ⟨((turn 1380 (some (Spec.text [.time 6 0, .entry [65], .time 22 0, .entry [66]])) boot).getD (boot, false)).1, by decide +kernel, by decide +kernel, ?_, ?_⟩
  · intro now file
    unfold tick
    rw [if_pos (by decide +kernel)]
  · intro h
    have := (h.2 1 1320 ⟨[66], rfl⟩).2 (by decide)
    omega

end Verif.Pls
