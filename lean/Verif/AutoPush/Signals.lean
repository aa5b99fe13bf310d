import Verif.AutoPush.Props

/-!
# C97: which pushes are told to end, and requests
-/
namespace Verif.AutoPush
open Spec

/-- What a check does to pushes: those listed were listed before or started, and each that is told to end has an entry with `W`. -/
def Fair (W : Bytes → Bytes → Prop) (s t : State) : Prop :=
  ∃ new, t.log = s.log ++ new ∧ (∀ q ∈ t.pushes, q ∈ s.pushes ∨ .started q.pid q.stream q.orig ∈ new) ∧
    ∀ pid, .term pid ∈ new → ∃ st tg, W st tg ∧ ((∃ p ∈ s.pushes, p.pid = pid ∧ p.stream = st ∧ p.orig = tg) ∨ .started pid st tg ∈ new)

theorem Fair.refl (W : Bytes → Bytes → Prop) (s : State) : Fair W s s := ⟨[], by simp, fun q h => .inl h, fun pid h => by cases h⟩

theorem Fair.trans {W : Bytes → Bytes → Prop} {a b c : State} (h : Fair W a b) (h' : Fair W b c) : Fair W a c := by
  obtain ⟨x, hx, px, tx⟩ := h
  obtain ⟨y, hy, py, ty⟩ := h'
  refine ⟨x ++ y, by rw [hy, hx, List.append_assoc], ?_, ?_⟩
  · intro q hq
    rcases py q hq with h | h
    · rcases px q h with h | h
      · exact .inl h
      · exact .inr (List.mem_append.mpr (.inl h))
    · exact .inr (List.mem_append.mpr (.inr h))
  · intro pid hpid
    rcases List.mem_append.mp hpid with h | h
    · obtain ⟨st, tg, hw, hh⟩ := tx pid h
      refine ⟨st, tg, hw, ?_⟩
      rcases hh with hh | hh
      · exact .inl hh
      · exact .inr (List.mem_append.mpr (.inl hh))
    · obtain ⟨st, tg, hw, hh⟩ := ty pid h
      refine ⟨st, tg, hw, ?_⟩
      rcases hh with ⟨p, hp, rfl, rfl, rfl⟩ | hh
      · rcases px p hp with hp | hp
        · exact .inl ⟨p, hp, rfl, rfl, rfl⟩
        · exact .inr (List.mem_append.mpr (.inl hp))
      · exact .inr (List.mem_append.mpr (.inr hh))

theorem fair_wipe (W : Bytes → Bytes → Prop) (s : State) : Fair W s (wipe s) := by
  refine ⟨_, rfl, fun q hq => .inl (mem_wipe.mp hq).1, ?_⟩
  intro pid h
  obtain ⟨p, _, hp⟩ := List.mem_map.mp h
  cases hp

theorem stops_iff {pat tg : Bytes} {p : Push} :
    stops pat tg p = true ↔ p.orig = tg ∧ (p.stream = pat ∨ ∃ base rest, pat = base ++ [0x2B] ∧ p.stream = pat ++ rest) := by
  unfold stops
  simp only [Bool.and_eq_true, Bool.or_eq_true, decide_eq_true_eq]
  constructor
  · rintro ⟨h, hh | ⟨h1, h2⟩⟩
    · exact ⟨h, .inl hh⟩
    · obtain ⟨base, hb⟩ := List.getLast?_eq_some_iff.mp h1
      refine ⟨h, .inr ⟨base, p.stream.drop pat.length, hb, ?_⟩⟩
      conv => lhs; rw [← List.take_append_drop pat.length p.stream, h2]
  · rintro ⟨h, hh | ⟨base, rest, hb, hs⟩⟩
    · exact ⟨h, .inl hh⟩
    · exact ⟨h, .inr ⟨by rw [hb]; simp, by rw [hs]; simp⟩⟩

theorem fair_start (W : Bytes → Bytes → Prop) (env : Env) (s : State) (st tg : Bytes) : Fair W s (startPush env s st tg) := by
  rcases startPush_cases env s st tg with ⟨h', _⟩ | ⟨_, ⟨h', _⟩ | ⟨pid, t, hf, h'⟩⟩
  · rw [h']; exact Fair.refl W s
  · rw [h']; exact fair_wipe W s
  · rw [h']
    refine (fair_wipe W s).trans ⟨[.started pid st tg], rfl, ?_, ?_⟩
    · intro q hq
      rcases mem_put.mp hq with rfl | ⟨hq, _⟩
      · exact .inr (by simp)
      · exact .inl hq
    · intro pid' h
      simp at h

/-- C97: each push that a check tells to end belongs to an entry whose pushes are to end: it has the target of the entry and its stream is the one the entry names, or begins with it
if this ends in '+'. -/
theorem C97_told (env : Env) (s : State) (pid : Nat) (h : .term pid ∈ news s (step s (.check env))) :
    ∃ e ∈ s.auto, ∃ pat tg st, e.stream = some pat ∧ e.target = some tg ∧ ToEnd env e pat ∧
      (st = pat ∨ ∃ base rest, pat = base ++ [0x2B] ∧ st = pat ++ rest) ∧
      ((∃ p ∈ s.pushes, p.pid = pid ∧ p.stream = st ∧ p.orig = tg) ∨ .started pid st tg ∈ news s (step s (.check env))) := by
  let W : Bytes → Bytes → Prop := fun st tg => ∃ e ∈ s.auto, ∃ pat, e.stream = some pat ∧ e.target = some tg ∧ ToEnd env e pat ∧
    (st = pat ∨ ∃ base rest, pat = base ++ [0x2B] ∧ st = pat ++ rest)
  suffices hs : Fair W s (step s (.check env)) by
    obtain ⟨new, hn, _, ht⟩ := hs
    rw [news, hn, List.drop_left] at h ⊢
    obtain ⟨st, tg, ⟨e, he, pat, h1, h2, h3, h4⟩, hh⟩ := ht pid h
    exact ⟨e, he, pat, tg, st, h1, h2, h3, h4, hh⟩
  obtain ⟨m, hm⟩ := check_moves env s
  refine hm.rel (fun a b => Fair W a.1 b.1) (fun _ => Fair.refl W _) (fun _ _ _ => Fair.trans) ?_
  intro a b hmv
  cases hmv with
  | wipe s' n => exact fair_wipe W s'
  | wait s' n e name tg k he ht => exact Fair.refl W s'
  | start s' n e pat tg name => exact fair_start W env s' name tg
  | remove s' n e => exact Fair.refl W s'
  | drop s' n e => exact Fair.refl W s'
  | signal s' n pat tg e he hp ht hw =>
    refine Fair.trans (b := { s' with
      log := s'.log ++ (s'.pushes.filter fun p => decide (p.pid ∈ s'.procs) && stops pat tg p).map fun p => .term p.pid })
      ⟨_, rfl, fun q hq => .inl hq, ?_⟩ (fair_wipe W _)
    intro pid hpid
    obtain ⟨p, hp', heq⟩ := List.mem_map.mp hpid
    obtain ⟨hpm, hps⟩ := List.mem_filter.mp hp'
    rw [Bool.and_eq_true] at hps
    obtain ⟨ho, hst⟩ := stops_iff.mp hps.2
    cases heq
    refine ⟨p.stream, p.orig, ⟨e, he, pat, hp, by rw [ho]; exact ht, ?_, hst⟩, .inl ⟨p, hpm, rfl, rfl, rfl⟩⟩
    rcases hw with hw | hw
    · left
      unfold elapsed at hw
      cases hc : e.complete with
      | none => rw [hc] at hw; cases hw
      | some t => rw [hc] at hw; exact ⟨t, rfl, by simpa using hw⟩
    · right
      have hw' : ¬ checkPush env pat e = true := by rw [hw]; simp
      rw [checkPush_iff] at hw'
      by_cases hal : Allowed env (Text.sanitizeName pat) e
      · left
        cases hsch : e.schedule with
        | none => exact absurd ⟨fun t h => by rw [hsch] at h; (cases h), hal⟩ hw'
        | some t =>
          refine ⟨t, rfl, ?_⟩
          rcases Int.lt_or_le env.now t with h | h
          · exact h
          · refine absurd ⟨fun t' h' _ => ?_, hal⟩ hw'
            rw [hsch] at h'
            cases h'
            exact h
      · exact .inr hal

theorem keyLess_irrefl (a : Bytes) : keyLess a a = false := by
  induction a with
  | nil => rfl
  | cons x a ih => unfold keyLess; simp [ih]

theorem keyLess_tri : ∀ a b : Bytes, a ≠ b → keyLess a b = true ∨ keyLess b a = true
  | [], [], h => absurd rfl h
  | [], _ :: _, _ => .inl rfl
  | _ :: _, [], _ => .inr rfl
  | x :: a, y :: b, h => by
    unfold keyLess
    by_cases h1 : x < y
    · simp [h1]
    · by_cases h2 : y < x
      · simp [h2]
      · have hxy : x = y := UInt8.le_antisymm (UInt8.not_lt.mp h2) (UInt8.not_lt.mp h1)
        subst hxy
        simp only [h1, if_false]
        exact keyLess_tri a b (fun hab => h (by rw [hab]))

/-- C97: a request to add an automatic push adds it in the place of the one with the same name and keeps the others. -/
theorem C97_add (s : State) (e x : Entry) : x ∈ (step s (.add e)).auto ↔ x = e ∨ (x ∈ s.auto ∧ x.key ≠ e.key) := by
  show x ∈ addEntry e s.auto ↔ _
  unfold addEntry
  simp only [List.mem_append, List.mem_filter, List.mem_cons]
  constructor
  · rintro (⟨h, hk⟩ | h | ⟨h, hk⟩)
    · refine .inr ⟨h, fun he => ?_⟩
      rw [he, keyLess_irrefl] at hk; cases hk
    · exact .inl h
    · refine .inr ⟨h, fun he => ?_⟩
      rw [he, keyLess_irrefl] at hk; cases hk
  · rintro (h | ⟨h, hk⟩)
    · exact .inr (.inl h)
    · rcases keyLess_tri _ _ hk with hh | hh
      · exact .inl ⟨h, hh⟩
      · exact .inr (.inr ⟨h, hh⟩)

/-- C97: a request to stop a push by its number reaches the process if and only if a push of this number is listed (zero and one are never numbers of pushes); a request to stop the
pushes of a stream reaches exactly the running ones of this stream. Nothing else is changed. -/
theorem C97_requests (s : State) (n : Nat) (st : Bytes) :
    (∀ ev, ev ∈ news s (step s (.stop n)) ↔ ev = .term n ∧ 1 < n ∧ ∃ p ∈ s.pushes, p.pid = n) ∧
    (∀ ev, ev ∈ news s (step s (.hang n)) ↔ ev = .hup n ∧ 1 < n ∧ ∃ p ∈ s.pushes, p.pid = n) ∧
    (∀ ev, ev ∈ news s (step s (.stopStream st)) ↔ ∃ p ∈ s.pushes, p.stream = st ∧ p.pid ∈ s.procs ∧ ev = .term p.pid) ∧
    (∀ ev, ev ∈ news s (step s (.hangStream st)) ↔ ∃ p ∈ s.pushes, p.stream = st ∧ p.pid ∈ s.procs ∧ ev = .hup p.pid) ∧
    ∀ o ∈ [Op.stop n, .hang n, .stopStream st, .hangStream st],
      (step s o).pushes = s.pushes ∧ (step s o).auto = s.auto ∧ (step s o).procs = s.procs := by
  refine ⟨?_, ?_, ?_, ?_, ?_⟩
  · intro ev
    unfold step news
    dsimp only
    split
    next h =>
      simp only [List.drop_left, List.mem_singleton]
      constructor
      · rintro rfl; exact ⟨rfl, h.1, by simpa using h.2⟩
      · exact fun h => h.1
    next h =>
      simp only [List.drop_length, List.not_mem_nil, false_iff]
      rintro ⟨_, h1, h2⟩
      exact h ⟨h1, by simpa using h2⟩
  · intro ev
    unfold step news
    dsimp only
    split
    next h =>
      simp only [List.drop_left, List.mem_singleton]
      constructor
      · rintro rfl; exact ⟨rfl, h.1, by simpa using h.2⟩
      · exact fun h => h.1
    next h =>
      simp only [List.drop_length, List.not_mem_nil, false_iff]
      rintro ⟨_, h1, h2⟩
      exact h ⟨h1, by simpa using h2⟩
  · intro ev
    unfold step news ofStream
    simp only [List.drop_left, List.mem_map, List.mem_filter, Bool.and_eq_true, decide_eq_true_eq]
    grind
  · intro ev
    unfold step news ofStream
    simp only [List.drop_left, List.mem_map, List.mem_filter, Bool.and_eq_true, decide_eq_true_eq]
    grind
  · intro o ho
    simp only [List.mem_cons, List.not_mem_nil, or_false] at ho
    rcases ho with rfl | rfl | rfl | rfl <;> unfold step <;> dsimp only <;> (try split) <;> exact ⟨rfl, rfl, rfl⟩

/-- C97: the end of a process changes nothing in the list of pushes until the next check or request, and then exactly the pushes of this process are gone. -/
theorem C97_gone (s : State) (n : Nat) (h : ∀ p ∈ s.pushes, p.pid ∈ s.procs) :
    (step s (.died n)).pushes = s.pushes ∧ (step s (.died n)).log = s.log ∧
    ∀ p, p ∈ (step (step s (.died n)) .list).pushes ↔ p ∈ s.pushes ∧ p.pid ≠ n := by
  refine ⟨rfl, rfl, fun p => ?_⟩
  show p ∈ (wipe _).pushes ↔ _
  rw [mem_wipe]
  show p ∈ s.pushes ∧ p.pid ∈ s.procs.filter (· ≠ n) ↔ _
  rw [List.mem_filter]
  constructor
  · rintro ⟨h1, _, h2⟩; exact ⟨h1, by simpa using h2⟩
  · rintro ⟨h1, h2⟩; exact ⟨h1, h p h1, by simpa using h2⟩

/-- A state with a push of "a+b" to "t", for which an entry for "a+" has an end time. -/
def ending : State :=
  { auto := [{ key := [1], stream := some [0x61, 0x2B], target := some [0x74], complete := some 5 }],
    pushes := [⟨7, [0x61, 0x2B, 0x62], [0x74], [0x74]⟩], procs := [7] }

/-- `C97_told`: a push whose end time passed is told to end; its stream begins with the name in the entry. -/
example : .term 7 ∈ news ending (step ending (.check ⟨9, [], fun _ _ => false, fun _ t => (t, true), fun _ _ _ => none⟩)) := by
  decide +kernel

/-- `C97_gone`: the pushes run. -/
example : ∀ p ∈ ending.pushes, p.pid ∈ ending.procs := by decide +kernel

/-- `C97_requests`: the request reaches the push. -/
example : .term 7 ∈ news ending (step ending (.stop 7)) ∧ .hup 7 ∈ news ending (step ending (.hangStream [0x61, 0x2B, 0x62])) := by
  decide +kernel

end Verif.AutoPush
