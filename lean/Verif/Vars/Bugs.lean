import Verif.Vars.Due

/-!
# C102: examples, and what goes wrong
-/
namespace Verif.Vars
open Verif Verif.Text Spec

instance decUsual (s : State) (o : Op) : Decidable (Usual s o) := by
  cases o with
  | check => exact decidable_of_iff (∀ e ∈ s.collect, e.1 ∈ s.config.map (·.1)) ⟨fun h e he => mem_names.mp (h e he), fun h e he => mem_names.mpr (h e he)⟩
  | got n d => exact decidable_of_iff (n ∈ s.gets ∧ n ∈ s.config.map (·.1)) ⟨fun h => ⟨h.1, mem_names.mp h.2⟩, fun h => ⟨h.1, mem_names.mpr h.2⟩⟩
  | clock b u => exact isTrue trivial
  | add n q => unfold Usual; infer_instance
  | refused n => exact isFalse id
  | remove n => exact isTrue trivial
  | finish n o => unfold Usual; infer_instance
  | failed n => exact isTrue trivial
  | restart => unfold Usual; infer_instance

instance decAllUsual : (ops : List Op) → (s : State) → Decidable (AllUsual s ops)
  | [], _ => isTrue trivial
  | o :: l, s => by
    have := decAllUsual l (step s o)
    unfold AllUsual
    infer_instance

/-- A variable `a` whose program `/x` is run every minute, and gave "hi" at 100 seconds after the boot. -/
def minutely : List Op :=
  [.add [97] { target := some [47, 120], interval := some 60000 }, .check, .finish [97] [104, 105, 10]]

example : AllUsual (fresh 100000 1000) (minutely ++ [.check]) := by decide +kernel

/-- `C102_values_partial` is about histories like this one. -/
example : (∃ p, (run (fresh 100000 1000) (minutely ++ [.check])).page = some p ∧ found p [97] = [[104, 105]]) ∧
    (run (fresh 100000 1000) (minutely ++ [.check])).config.map (fun e => (e.1, e.2.value)) = [([97], some [104, 105])] := by
  constructor
  · obtain ⟨_, _, _, h, hp⟩ := C102_values_partial 100000 1000 (minutely ++ [.check]) (by decide +kernel)
    have hne := hp .check rfl (.inl rfl)
    cases hpg : (run (fresh 100000 1000) (minutely ++ [.check])).page with
    | none => exact absurd hpg hne
    | some p => exact ⟨p, rfl, by rw [h p hpg]; decide +kernel⟩
  · decide +kernel

/-- `C102_started`: the check starts the program, for one minute at most. -/
example : startsOf (run (fresh 100000 1000) (minutely.take 1)) = [⟨[97], [47, 120], 60000⟩] ∧ Usual (run (fresh 100000 1000) (minutely.take 1)) .check := by
  decide +kernel

/-- `C102_interval` and `C102_due_partial`: a minute later the program is started again. -/
example : Result (run (fresh 100000 1000) minutely) [97] .check ∧
    AllUsual (fresh 100000 1000) (minutely ++ Op.check :: [.clock 159999 1060, .check, .clock 160000 1060]) ∧
    AllQuiet [97] (run (fresh 100000 1000) (minutely ++ [.check])) [.clock 159999 1060, .check, .clock 160000 1060] ∧
    AllLeave [97] 60000 (run (fresh 100000 1000) (minutely ++ [.check])) [.clock 159999 1060, .check, .clock 160000 1060] ∧
    startsOf (run (fresh 100000 1000) (minutely ++ Op.check :: [.clock 159999 1060, .check, .clock 160000 1060])) = [⟨[97], [47, 120], 60000⟩] := by
  refine ⟨?_, by decide +kernel, ⟨trivial, ?_, trivial, trivial⟩, ⟨?_, trivial, ?_, trivial⟩, by decide +kernel⟩
  · exact ⟨([97], [104, 105, 10]), by decide +kernel, rfl⟩
  · unfold Quiet; decide +kernel
  · unfold Leaves; decide +kernel
  · unfold Leaves; decide +kernel

/-- C102: the claim that a target is started again once its interval has passed is false when other variables are added in the meantime: adding a variable puts the times of the
last runs of all others in the future, as far as they were in the past. -/
theorem C102_late_fails :
    ¬ ∀ (b u : Nat) (before later : List Op) (o : Op) (n : Bytes) (v : Var) (i : Nat), AllUsual (fresh b u) (before ++ o :: later) →
      Result (run (fresh b u) before) n o → (n, v) ∈ (run (fresh b u) before).config → v.interval = some i → 0 < i →
      AllLeave n i (run (fresh b u) (before ++ [o])) later → Usual (run (fresh b u) (before ++ o :: later)) .check →
      isUrl (v.target.getD []) = false → n ∉ (run (fresh b u) (before ++ o :: later)).runs →
      (run (fresh b u) before).boot + i ≤ (run (fresh b u) (before ++ o :: later)).boot →
      ∃ st ∈ startsOf (run (fresh b u) (before ++ o :: later)), st.name = n := by
  intro h
  obtain ⟨st, hst, _⟩ := h 100000 1000 minutely [.clock 150000 1050, .add [98] {}, .clock 250000 1150] .check [97]
    { target := some [47, 120], interval := some 60000 } 60000 (by decide +kernel)
    ⟨([97], [104, 105, 10]), by decide +kernel, rfl⟩ (by decide +kernel) rfl (by decide)
    ⟨by unfold Leaves; decide +kernel, fun hh => absurd hh (by decide +kernel), by unfold Leaves; decide +kernel, trivial⟩
    (by decide +kernel) (by decide +kernel) (by decide +kernel) (by decide +kernel)
  have : startsOf (run (fresh 100000 1000) (minutely ++ Op.check :: [.clock 150000 1050, .add [98] {}, .clock 250000 1150])) = [] := by decide +kernel
  rw [this] at hst
  cases hst

/-- C102: the claim that the controller, after starting a target, looks at the variables again before the interval has passed is false: with an interval of one second it looks again
after ten. (When the target is a program its end brings the next check forward; when the target is a URL nothing does.) -/
theorem C102_again_fails :
    ¬ ∀ (b u : Nat) (ops : List Op), AllUsual (fresh b u) ops → ∀ st ∈ startsOf (run (fresh b u) ops), ∀ v i, (st.name, v) ∈ (run (fresh b u) ops).config →
      v.interval = some i → 0 < i → i < 4294967296 → delayOf (run (fresh b u) ops) ≤ i := by
  intro h
  have := h 100000 1000 [.add [97] { target := some [0x68, 0x74, 0x74, 0x70, 0x3a, 0x2f, 0x2f, 0x61], interval := some 1000 }] (by decide +kernel)
    ⟨[97], [0x68, 0x74, 0x74, 0x70, 0x3a, 0x2f, 0x2f, 0x61], 1000⟩ (by decide +kernel)
    { target := some [0x68, 0x74, 0x74, 0x70, 0x3a, 0x2f, 0x2f, 0x61], interval := some 1000 } 1000 (by decide +kernel) rfl (by decide) (by decide)
  revert this
  decide +kernel

/-- C102: the claim that a variable that was removed stays away until it is added again is false: when its target was running, the result brings it back. -/
theorem C102_zombie_fails :
    ¬ ∀ (b u : Nat) (ops later : List Op) (n : Bytes), (∀ o ∈ later, ∀ m q, o ≠ .add m q) → ∀ v, (n, v) ∉ (run (fresh b u) (ops ++ .remove n :: later)).config := by
  intro h
  refine h 100000 1000 [.add [97] { target := some [47, 120], interval := some 60000 }, .check] [.finish [97] [104, 105], .check] [97] ?_
    { value := some [104, 105], lastunix := some 1000 } (by decide +kernel)
  intro o ho m q hh
  subst hh
  simp at ho

/-- C102: the claim that every process finds only values of variables in the list is false: a request with too many elements takes the variable off the list only. -/
theorem C102_refused_fails :
    ¬ ∀ (b u : Nat) (ops : List Op) (p : Page), (run (fresh b u) ops).page = some p → ∀ n, found p n ≠ [] → ∃ v, (n, v) ∈ (run (fresh b u) ops).config := by
  intro h
  have hc : (run (fresh 100000 1000) [.add [97] { value := some [49] }, .refused [97]]).config = [] := by decide +kernel
  cases hp : (run (fresh 100000 1000) [.add [97] { value := some [49] }, .refused [97]]).page with
  | none =>
    have : (run (fresh 100000 1000) [.add [97] { value := some [49] }, .refused [97]]).page.isSome = true := by decide +kernel
    rw [hp] at this; cases this
  | some p =>
    obtain ⟨v, hv⟩ := h 100000 1000 _ p hp [97] (by
      have : ((run (fresh 100000 1000) [.add [97] { value := some [49] }, .refused [97]]).page.map fun p => found p [97]) = some [[49]] := by decide +kernel
      rw [hp] at this
      have h2 : found p [97] = [[49]] := Option.some.inj this
      rw [h2]; decide)
    rw [hc] at hv
    cases hv

theorem config_adds (l : List (Bytes × Req)) : ∀ (s : State), ((l.map fun e => Op.add e.1 e.2).foldl step s).config =
    l.foldl (fun c e => put e.2.apply (e.1.take 31) c) s.config ∧ ((l.map fun e => Op.add e.1 e.2).foldl step s).boot = s.boot ∧
    ((l.map fun e => Op.add e.1 e.2).foldl step s).unix = s.unix := by
  induction l with
  | nil => exact fun s => ⟨rfl, rfl, rfl⟩
  | cons e l ih =>
    intro s
    rw [List.map_cons, List.foldl_cons, List.foldl_cons]
    exact ih (step s (.add e.1 e.2))

/-- Ninety-six variables with values. -/
def many : List (Bytes × Req) := (List.range 96).map fun k => ([UInt8.ofNat (k + 1)], { value := some [UInt8.ofNat (k + 1)] })

/-- C102: the claim that every process finds the values of all variables is false after a restart with more than 95 variables: the page is not made larger when it is first written, and
the last variables replace the first. -/
theorem C102_wrap_fails :
    ¬ ∀ (b u : Nat) (ops : List Op) (p : Page), (∀ o ∈ ops, (∃ n q, o = .add n q ∧ 0 ∉ n) ∨ o = .restart ∨ o = .check) → (run (fresh b u) ops).page = some p →
      ∀ n v, (n, v) ∈ (run (fresh b u) ops).config → found p n = [shown (v.value.getD [])] := by
  intro h
  have hrun : run (fresh 100000 1000) (many.map (fun e => Op.add e.1 e.2) ++ [.restart, .check]) =
      step { config := many.foldl (fun c e => put e.2.apply (e.1.take 31) c) [], boot := 100000, unix := 1000 } .check := by
    unfold run
    rw [List.foldl_append]
    obtain ⟨h1, h2, h3⟩ := config_adds many (fresh 100000 1000)
    generalize (many.map fun e => Op.add e.1 e.2).foldl step (fresh 100000 1000) = s at h1 h2 h3 ⊢
    show step { config := s.config, boot := s.boot, unix := s.unix } .check = _
    rw [h1, h2, h3]
    rfl
  have hops : ∀ o ∈ many.map (fun e => Op.add e.1 e.2) ++ [.restart, .check], (∃ n q, o = .add n q ∧ 0 ∉ n) ∨ o = .restart ∨ o = .check := by
    intro o ho
    rcases List.mem_append.mp ho with ho | ho
    · obtain ⟨e, he, rfl⟩ := List.mem_map.mp ho
      have : ∀ e ∈ many, 0 ∉ e.1 := by decide +kernel
      exact .inl ⟨e.1, e.2, rfl, this e he⟩
    · right
      simpa using ho
  cases hp : (run (fresh 100000 1000) (many.map (fun e => Op.add e.1 e.2) ++ [.restart, .check])).page with
  | none =>
    have : (step { config := many.foldl (fun c e => put e.2.apply (e.1.take 31) c) [], boot := 100000, unix := 1000 } .check).page.isSome = true := by decide +kernel
    rw [← hrun, hp] at this; cases this
  | some p =>
    have h1 := h 100000 1000 _ p hops hp [1] { value := some [1] } (by rw [hrun]; decide +kernel)
    have h2 : ((step { config := many.foldl (fun c e => put e.2.apply (e.1.take 31) c) [], boot := 100000, unix := 1000 } .check).page.map fun p => found p [1])
        = some [] := by decide +kernel
    rw [← hrun, hp] at h2
    have h3 : found p [1] = [] := Option.some.inj h2
    rw [h3] at h1
    cases h1

end Verif.Vars
