import Verif.AutoPush.Restart

/-!
# C97: where automatic pushes do something else, and examples
-/
namespace Verif.AutoPush
open Spec

/-- The stream "l+a". -/
def streamA : Bytes := [0x6C, 0x2B, 0x61]
/-- The wildcard "l+". -/
def wild : Bytes := [0x6C, 0x2B]
/-- A target. -/
def dest : Bytes := [0x74]
/-- "stream" -/
def varName : Bytes := [0x73, 0x74, 0x72, 0x65, 0x61, 0x6D]

/-- A world at time 1000 in which "l+a" is ready and has the tag "x", the only variable is `$stream`, and processes can be started. -/
def world : Env where
  now := 1000
  ready := [streamA]
  tagged := fun s t => s == streamA && t == [0x78]
  expand := fun st text => if text = 0x24 :: varName then (st, true) else (text, false)
  spawn := fun procs _ t => some (procs.foldl max 1 + 1, t)

/-- C97: a push that is scheduled for later is started at once when its stream becomes active (the test of the time is the wrong way
around). -/
theorem C97_scheduled_fails : ∃ (env : Env) (s : State) (name : Bytes) (pid : Nat) (st tg : Bytes),
    .started pid st tg ∈ news s (step s (.became env name)) ∧ ∀ e ∈ s.auto, ¬ MayStart env e st tg := by
  refine ⟨world, { auto := [{ key := [1], stream := some streamA, target := some dest, schedule := some 2000 }] }, streamA, 2, streamA,
    dest, by decide +kernel, ?_⟩
  intro e he
  rw [List.mem_singleton.mp he]
  rintro ⟨_, _, _, _, h, _⟩
  exact absurd (h 2000 rfl) (by decide)

/-- C97: a push whose end time has passed is started when its stream becomes active. -/
theorem C97_ended_start_fails : ∃ (env : Env) (s : State) (name : Bytes) (pid : Nat) (st tg : Bytes),
    .started pid st tg ∈ news s (step s (.became env name)) ∧ ∀ e ∈ s.auto, ¬ MayStart env e st tg := by
  refine ⟨world, { auto := [{ key := [1], stream := some streamA, target := some dest, complete := some 500 }] }, streamA, 2, streamA,
    dest, by decide +kernel, ?_⟩
  intro e he
  rw [List.mem_singleton.mp he]
  rintro ⟨_, _, _, _, _, h⟩
  exact absurd (h 500 rfl) (by decide)

/-- C97: the check looks at the rules of a wildcard for the wildcard itself and not for the stream, so that it starts a push that a rule
forbids: here a rule that the stream is not "l+a". -/
theorem C97_wildcard_rule_fails : ∃ (env : Env) (s : State) (pid : Nat) (st tg : Bytes),
    .started pid st tg ∈ news s (step s (.check env)) ∧ ∀ e ∈ s.auto, ¬ Allowed env st e := by
  refine ⟨world, { auto := [{ key := [1], stream := some wild, target := some dest, startRule := some (some ⟨varName, 3, streamA⟩) }], wait := 1, waiting := fun _ _ => 1 }, 2, streamA, dest, by decide +kernel, ?_⟩
  intro e he
  rw [List.mem_singleton.mp he, ← rulesHold_iff]
  decide +kernel

/-- C97: the check starts pushes for a wildcard before their scheduled time. -/
theorem C97_wildcard_time_fails : ∃ (env : Env) (s : State) (pid : Nat) (st tg : Bytes),
    .started pid st tg ∈ news s (step s (.check env)) ∧ ∀ e ∈ s.auto, ∃ t, e.schedule = some t ∧ env.now < t := by
  refine ⟨world, { auto := [{ key := [1], stream := some wild, target := some dest, schedule := some 2000, complete := some 3000 }] },
    2, streamA, dest, by decide +kernel, ?_⟩
  intro e he
  rw [List.mem_singleton.mp he]
  exact ⟨2000, rfl, by decide⟩

/-- C97: pushes that were started for a wildcard keep running when its rules stop to hold: no signal is sent. -/
theorem C97_wildcard_stop_fails : ∃ (env : Env) (s : State) (e : Entry) (p : Push), e ∈ s.auto ∧ e.stream = some wild ∧
    e.target = some p.orig ∧ Meant env p.stream wild ∧ ¬ Allowed env p.stream e ∧ ¬ Allowed env wild e ∧ p ∈ s.pushes ∧ p.pid ∈ s.procs ∧
    news s (step s (.check env)) = [] ∧ (step s (.check env)).auto = s.auto := by
  refine ⟨world, { auto := [{ key := [1], stream := some wild, target := some dest, startRule := some (some ⟨varName, 2, [1]⟩) }], pushes := [⟨7, streamA, dest, dest⟩], procs := [7] }, _, ⟨7, streamA, dest, dest⟩, List.mem_singleton.mpr rfl, rfl, rfl, ?_, ?_, ?_,
    by decide, by decide, by decide +kernel, by decide +kernel⟩
  · rw [← streamMatches_iff]; decide +kernel
  · rw [← rulesHold_iff]; decide +kernel
  · rw [← rulesHold_iff]; decide +kernel

/-- C97: pushes that were started for a tag keep running after the end time: the entry is removed and no signal is sent. -/
theorem C97_tag_end_fails : ∃ (env : Env) (s : State) (e : Entry) (p : Push) (pat : Bytes), e ∈ s.auto ∧ e.stream = some pat ∧
    e.target = some p.orig ∧ Meant env p.stream pat ∧ elapsed env e = true ∧ p ∈ s.pushes ∧ p.pid ∈ s.procs ∧
    news s (step s (.check env)) = [] ∧ (step s (.check env)).auto = [] := by
  refine ⟨world, { auto := [{ key := [1], stream := some [0x23, 0x78], target := some dest, complete := some 500 }], pushes := [⟨7, streamA, dest, dest⟩], procs := [7] }, _, ⟨7, streamA, dest, dest⟩, [0x23, 0x78], List.mem_singleton.mpr rfl, rfl, rfl,
    ?_, by decide +kernel, by decide, by decide, by decide +kernel, by decide +kernel⟩
  rw [← streamMatches_iff]; decide +kernel

/-! ## Examples -/

theorem fresh_max (l : List Nat) : ∀ a, (∀ x ∈ l, x ≤ l.foldl max a) ∧ a ≤ l.foldl max a := by
  induction l with
  | nil => exact fun a => ⟨by simp, Nat.le_refl a⟩
  | cons b l ih =>
    intro a
    obtain ⟨h1, h2⟩ := ih (max a b)
    refine ⟨?_, ?_⟩
    · intro x hx
      rcases List.mem_cons.mp hx with rfl | hx
      · exact Nat.le_trans (Nat.le_max_right a x) h2
      · exact h1 x hx
    · exact Nat.le_trans (Nat.le_max_left a b) h2

theorem world_works (st tg : Bytes) : Works world st tg := by
  intro procs
  refine ⟨procs.foldl max 1 + 1, tg, rfl, by omega, ?_⟩
  intro h
  have := (fresh_max procs 1).1 _ h
  omega

/-- An automatic push of "l+a". -/
def plainEntry : Entry := { key := [1], stream := some streamA, target := some dest }

/-- Conditions: 9 < 10 as numbers, "9" > "10" as texts, " Yes" is a yes. -/
example : Compare [0x39] 12 [0x31, 0x30] ∧ Compare [0x39] 20 [0x31, 0x30] ∧ Yes [0x20, 0x59, 0x65, 0x73] := by
  simp only [← checkCondition_iff, ← stringToBool_iff]
  decide +kernel

/-- `C97_check_partial`: a push started by a check. -/
example : .started 2 streamA dest ∈ news { auto := [plainEntry], wait := 1, waiting := fun _ _ => 1 }
    (step { auto := [plainEntry], wait := 1, waiting := fun _ _ => 1 } (.check world)) := by decide +kernel

/-- `C97_speed`: two are due and the speed is one. -/
example : starts (news { auto := [plainEntry, { plainEntry with key := [2], target := some [1] }], wait := 1, speed := 1, waiting := fun _ _ => 1 }
    (step { auto := [plainEntry, { plainEntry with key := [2], target := some [1] }], wait := 1, speed := 1, waiting := fun _ _ => 1 }
      (.check world))) = [.started 2 streamA dest] := by decide +kernel

/-- `C97_once`: a history with two requests for the same push, and a third after it ended. -/
example : (run [.start world streamA dest, .start world streamA dest, .died 2, .start world streamA dest]).pushes =
      [⟨2, streamA, dest, dest⟩] ∧
    (run [.start world streamA dest, .start world streamA [1], .start world streamA dest]).pushes =
      [⟨2, streamA, dest, dest⟩, ⟨3, streamA, [1], [1]⟩] := by decide +kernel

/-- `C97_became`: the hypotheses of a plain entry. -/
example : Covered world (step { auto := [plainEntry] } (.became world streamA)) streamA dest := by
  refine C97_became world { auto := [plainEntry] } streamA streamA dest plainEntry (by simp) rfl rfl (.inl rfl) ?_ ?_ rfl (world_works _ _)
  · intro p hp; cases hp
  · exact ⟨(fun r h => by cases h), (fun r h => by cases h)⟩

/-- `C97_stop_partial`: a push whose rule does not hold gets the signal. -/
example : .term 7 ∈ news { auto := [{ plainEntry with startRule := some (some ⟨varName, 2, [1]⟩) }], pushes := [⟨7, streamA, dest, dest⟩], procs := [7] } (step { auto := [{ plainEntry with startRule := some (some ⟨varName, 2, [1]⟩) }], pushes := [⟨7, streamA, dest, dest⟩], procs := [7] } (.check world)) := by decide +kernel

/-- `C97_end_partial`: the end time of a wildcard passed. -/
example : news { auto := [{ plainEntry with stream := some wild, complete := some 999 }], pushes := [⟨7, streamA, dest, dest⟩], procs := [7] } (step { auto := [{ plainEntry with stream := some wild, complete := some 999 }], pushes := [⟨7, streamA, dest, dest⟩], procs := [7] } (.check world)) = [.term 7] := by decide +kernel

/-- `C97_restart`: a waiting time of two, three checks. -/
example : ∃ pre env post, [Op.check world, .died 7, .check world, .check world] = pre ++ .check env :: post ∧
    (Covered env ((pre ++ [Op.check env]).foldl step { auto := [plainEntry], wait := 2 }) streamA dest ∨
      Covered env ((pre ++ [Op.check env]).foldl step { auto := [plainEntry], wait := 2 }) streamA dest) := by
  refine C97_restart { auto := [plainEntry], wait := 2 } plainEntry streamA streamA dest 2 (by decide) (by simp) rfl rfl ?_ rfl rfl
    (by decide) (by decide) rfl _ ?_ (by decide)
  · intro x hx _; exact List.mem_singleton.mp hx
  · have hdue : Due [plainEntry] plainEntry streamA streamA dest world := by
      refine ⟨.inl rfl, by decide, (fun p hp => by cases hp), ⟨(fun r h => by cases h), (fun r h => by cases h)⟩, world_works _ _, ?_⟩
      intro x hx t h
      rw [List.mem_singleton.mp hx] at h
      cases h
    intro o ho
    simp only [List.mem_cons, List.not_mem_nil, or_false] at ho
    rcases ho with rfl | rfl | rfl | rfl
    · exact hdue
    · exact trivial
    · exact hdue
    · exact hdue

/-- `C97_ended`: a push whose process ended is reported. -/
example : news { pushes := [⟨7, streamA, dest, dest⟩, ⟨8, streamA, [1], [1]⟩], procs := [8] }
    (step { pushes := [⟨7, streamA, dest, dest⟩, ⟨8, streamA, [1], [1]⟩], procs := [8] } (.check world)) = [.ended 7 streamA] := by
  decide +kernel

end Verif.AutoPush
