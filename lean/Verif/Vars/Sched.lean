import Verif.Vars.Props

/-!
# C102: how often the targets of custom variables run
-/
namespace Verif.Vars
open Verif Verif.Text Spec

/-- The record of `n`, if there is one, was last run at `t` or later, as was the variable. -/
structure Kept (n : Bytes) (t i : Nat) (s : State) : Prop where
  boot : t ≤ s.boot
  conf : ∃ v l, find s.config n = some v ∧ v.interval = some i ∧ v.lastunix = some l ∧ l ≤ s.unix
  recs : ∀ p, s.page = some p → ∀ r ∈ p.all, r.name = n → t ≤ r.lastRun

theorem find_of_mem {c : List (Bytes × Var)} (hn : (c.map (·.1)).Nodup) {e : Bytes × Var} (he : e ∈ c) : find c e.1 = some e.2 := by
  induction c with
  | nil => cases he
  | cons x c ih =>
    rw [List.map_cons, List.nodup_cons] at hn
    rcases List.mem_cons.mp he with rfl | he
    · unfold find; simp
    · have : ¬ x.1 = e.1 := fun hh => hn.1 (by rw [hh]; exact List.mem_map_of_mem he)
      rw [← ih hn.2 he]
      unfold find; simp [this]

theorem kept_write {n : Bytes} {t i : Nat} {s : State} (hb : t ≤ s.boot)
    (hc : ∃ v l, find s.config n = some v ∧ v.interval = some i ∧ v.lastunix = some l ∧ l ≤ s.unix)
    (hg : ∀ e ∈ s.config, GoodName e.1) (hn : (s.config.map (·.1)).Nodup) (hsz : 65536 ≤ s.pageSize)
    (hl : s.page = none → s.config.length ≤ 95) : Kept n t i (writeToShm s) := by
  refine ⟨hb, hc, ?_⟩
  intro p hp r hr hrn
  obtain ⟨q, hq, _, ha⟩ := write_page hsz hl
  rw [hq] at hp
  cases hp
  rw [ha] at hr
  obtain ⟨e, he, rfl⟩ := List.mem_map.mp hr
  have hname : e.1 = n := by
    have : (recOf s.boot s.unix e).name = e.1 := cstr_name (hg e he)
    rw [← this]; exact hrn
  obtain ⟨v, l, hv, _, hlu, hle⟩ := hc
  have := find_of_mem hn he
  rw [hname, hv] at this
  cases this
  show t ≤ lastRunOf s.boot s.unix e.2
  unfold lastRunOf
  rw [hlu]
  dsimp only
  omega

theorem kept_runs {n : Bytes} {t i : Nat} {s : State} (h : Kept n t i s) (r g : List Bytes) (c : List (Bytes × Bytes)) :
    Kept n t i { s with runs := r, gets := g, collect := c } := ⟨h.boot, h.conf, h.recs⟩

theorem all_of_mutate {s : State} (h : Agree s) {p : Page} (hp : s.page = some p) (m out : Bytes) :
    ∃ q, (mutateVariable s m out).page = some q ∧ q.all = p.all.map (touched m (trimmed out) s.boot) := by
  refine ⟨⟨mutatePage p.recs m (trimmed out) s.boot 0 p.endPos, p.endPos⟩, ?_, ?_⟩
  · show s.page.map _ = _
    rw [hp]; rfl
  · exact (all_mutate (h.page p hp).2.1 (by rw [names_of_page h hp]; exact h.nodup) m (trimmed out) s.boot).2

theorem kept_mutate {n : Bytes} {t i : Nat} {s : State} (h : Kept n t i s) (hA : Agree s) (m out : Bytes) : Kept n t i (mutateVariable s m out) := by
  refine ⟨h.boot, ?_, ?_⟩
  · obtain ⟨v, l, hv, hi, hl, hle⟩ := h.conf
    show ∃ v l, find (put _ m s.config) n = some v ∧ _
    rw [find_put]
    by_cases hm : n = m
    · subst hm
      rw [if_pos rfl, hv]
      exact ⟨_, s.unix, rfl, hi, rfl, Nat.le_refl _⟩
    · rw [if_neg hm]
      exact ⟨v, l, hv, hi, hl, hle⟩
  · intro q hq r hr hrn
    cases hp : s.page with
    | none =>
      have := (page_mutate (s := s) m out).mpr hp
      rw [this] at hq; cases hq
    | some p =>
      obtain ⟨q', hq', ha⟩ := all_of_mutate hA hp m out
      rw [hq'] at hq
      cases hq
      rw [ha] at hr
      obtain ⟨x, hx, rfl⟩ := List.mem_map.mp hr
      unfold touched at hrn ⊢
      by_cases hxm : x.name = m
      · rw [if_pos hxm]; exact h.boot
      · rw [if_neg hxm] at hrn ⊢
        exact h.recs p hp x hx hrn

/-- After a result for `n`. -/
theorem kept_result {n : Bytes} {i : Nat} {s : State} (hA : Agree s) {v : Var} (hv : find s.config n = some v) (hi : v.interval = some i) (out : Bytes) :
    Kept n s.boot i (mutateVariable s n out) := by
  refine ⟨Nat.le_refl _, ?_, ?_⟩
  · show ∃ v l, find (put _ n s.config) n = some v ∧ _
    rw [find_put, if_pos rfl, hv]
    exact ⟨_, s.unix, rfl, hi, rfl, Nat.le_refl _⟩
  · intro q hq r hr hrn
    cases hp : s.page with
    | none =>
      have := (page_mutate (s := s) n out).mpr hp
      rw [this] at hq; cases hq
    | some p =>
      obtain ⟨q', hq', ha⟩ := all_of_mutate hA hp n out
      rw [hq'] at hq
      cases hq
      rw [ha] at hr
      obtain ⟨x, hx, rfl⟩ := List.mem_map.mp hr
      unfold touched at hrn ⊢
      by_cases hxm : x.name = n
      · rw [if_pos hxm]; exact Nat.le_refl _
      · rw [if_neg hxm] at hrn
        exact absurd hrn hxm

/-- All outputs are looked at: what was kept stays, and what there is an output of is kept. -/
theorem kept_fold {n : Bytes} {t i : Nat} (l : List (Bytes × Bytes)) : ∀ (s : State), Agree s → (∀ e ∈ l, e.1 ∈ s.runs) →
    (l.map (·.1)).Nodup → (∀ e ∈ l, e.1 ∈ s.config.map (·.1)) →
    (Kept n t i s ∨ (t = s.boot ∧ (∃ v, find s.config n = some v ∧ v.interval = some i) ∧ ∃ e ∈ l, e.1 = n)) →
    Kept n t i (l.foldl collectOne s) := by
  induction l with
  | nil =>
    intro s _ _ _ _ h
    rcases h with h | ⟨_, _, e, he, _⟩
    · exact h
    · cases he
  | cons e l ih =>
    intro s h hr hd hc hk
    rw [List.map_cons, List.nodup_cons] at hd
    have he : e.1 ∈ s.runs := hr e (by simp)
    have hec : e.1 ∈ s.config.map (·.1) := hc e (by simp)
    have hpn : s.page ≠ none := fun hp => by
      have := (h.none_ hp).2.2.1
      rw [this] at he; cases he
    have hm := agree_mutate h hpn hec e.2
    have hone : collectOne s e = { mutateVariable s e.1 e.2 with runs := s.runs.filter (· ≠ e.1) } := by
      unfold collectOne; rw [if_pos he]
    have hA : Agree (collectOne s e) := by
      rw [hone]
      exact agree_runs hm (fun hh => hpn ((page_mutate _ _).mp hh)) _ _ _
    have hcfg : (collectOne s e).config.map (·.1) = s.config.map (·.1) := by rw [hone]; exact names_mutate hec e.2
    have hruns : (collectOne s e).runs = s.runs.filter (· ≠ e.1) := by rw [hone]
    have hrest : ∀ x ∈ l, x.1 ∈ (collectOne s e).runs := by
      intro x hx
      rw [hruns, List.mem_filter]
      refine ⟨hr x (by simp [hx]), ?_⟩
      have : x.1 ≠ e.1 := fun hh => hd.1 (by rw [← hh]; exact List.mem_map_of_mem hx)
      simpa using this
    refine ih (collectOne s e) hA hrest hd.2 (by rw [hcfg]; exact fun x hx => hc x (by simp [hx])) ?_
    rcases hk with hk | ⟨ht, ⟨v, hv, hvi⟩, x, hx, hxn⟩
    · left
      rw [hone]
      exact kept_runs (kept_mutate hk h e.1 e.2) _ _ _
    · by_cases hen : e.1 = n
      · left
        rw [hone, ht, hen]
        exact kept_runs (kept_result h hv hvi e.2) _ _ _
      · right
        have hb : (collectOne s e).boot = s.boot := by rw [hone]; rfl
        refine ⟨by rw [hb]; exact ht, ⟨v, ?_, hvi⟩, ?_⟩
        · have hcc : (collectOne s e).config = put (fun v => { v with lastunix := some s.unix, value := some (trimmed e.2) }) e.1 s.config := by
            rw [hone]; rfl
          rw [hcc, find_put, if_neg (Ne.symm hen)]
          exact hv
        · rcases List.mem_cons.mp hx with rfl | hx
          · exact absurd hxn hen
          · exact ⟨x, hx, hxn⟩

/-- The controller gets a result of the target of `n`. -/
def Result (s : State) (n : Bytes) : Op → Prop
  | .got m _ => m = n ∧ n ∈ s.gets
  | .check => ∃ e ∈ s.collect, e.1 = n
  | _ => False

/-- The event leaves the variable and its interval alone, and clocks do not go back. -/
def Leaves (s : State) (n : Bytes) (i : Nat) : Op → Prop
  | .clock b u => s.boot ≤ b ∧ s.unix ≤ u
  | .add m q => m.take 31 = n → q.interval = none ∨ q.interval = some i
  | .remove m => m ≠ n
  | _ => True

/-- All events of a history do. -/
def AllLeave (n : Bytes) (i : Nat) : State → List Op → Prop
  | _, [] => True
  | s, o :: l => Leaves s n i o ∧ AllLeave n i (step s o) l

theorem kept_flush {n : Bytes} {t i : Nat} {s : State} (h : Kept n t i s) (hA : Agree s) : Kept n t i (flush s) := by
  unfold flush
  split
  · exact kept_write h.boot h.conf hA.good hA.nodup hA.size (fun hp => by have := (hA.none_ hp).1; omega)
  · exact h

theorem kept_check {n : Bytes} {t i : Nat} {s : State} (hA : Agree s) (hC : Coll s) (hu : Usual s .check)
    (hk : Kept n t i s ∨ (t = s.boot ∧ (∃ v, find s.config n = some v ∧ v.interval = some i) ∧ ∃ e ∈ s.collect, e.1 = n)) :
    Kept n t i (collectAll s) ∧ Kept n t i (step s .check) := by
  have hf := kept_fold s.collect s hA hC.1 hC.2 (fun e he => mem_names.mpr (hu e he)) hk
  have h1 : Kept n t i (collectAll s) := kept_runs hf _ _ _
  refine ⟨h1, ?_⟩
  show Kept n t i (flush _)
  by_cases hpg : s.page = none
  · obtain ⟨a, b, c, e⟩ := hA.none_ hpg
    have hnil : s.collect = [] := by
      cases hcc : s.collect with
      | nil => rfl
      | cons x l =>
        have := hC.1 x (by rw [hcc]; simp)
        rw [c] at this; cases this
    have hca : collectAll s = s := by
      unfold collectAll
      rw [hnil]
      show { s with collect := [] } = s
      rw [← hnil]
    have hl : loopOf s = ⟨s.runs, s.gets, s.boot + 10000, []⟩ := by unfold loopOf; rw [hpg]; rfl
    rw [hca] at h1 ⊢
    rw [hl]
    exact kept_flush h1 hA
  · obtain ⟨i1, _, i3⟩ := collect_fold s.collect s ⟨fun n => (find s.config n).map fun v => v.value.getD [], []⟩ hA (fun _ => rfl) hC.1 hC.2
      (fun e he => mem_names.mpr (hu e he))
    refine kept_flush (kept_runs h1 _ _ _) ?_
    unfold collectAll
    exact agree_runs i1 (fun hh => hpg (i3.mp hh)) _ _ _

theorem kept_step {n : Bytes} {t i : Nat} {s : State} (hA : Agree s) (hC : Coll s) (h : Kept n t i s) {o : Op} (hu : Usual s o) (hl : Leaves s n i o) :
    Kept n t i (step s o) := by
  cases o with
  | clock b u =>
    obtain ⟨v, l, h1, h2, h3, h4⟩ := h.conf
    exact ⟨Nat.le_trans h.boot hl.1, ⟨v, l, h1, h2, h3, Nat.le_trans h4 hl.2⟩, h.recs⟩
  | refused m => exact absurd hu id
  | failed m => exact ⟨h.boot, h.conf, h.recs⟩
  | finish m out => exact ⟨h.boot, h.conf, h.recs⟩
  | restart => exact ⟨h.boot, h.conf, fun p hp => (by cases hp)⟩
  | check => exact (kept_check hA hC hu (.inl h)).2
  | got m data =>
    have hs : step s (.got m data) = { mutateVariable s m data with gets := s.gets.filter (· ≠ m) } := by
      show (if m ∈ s.gets then _ else s) = _
      rw [if_pos hu.1]
    rw [hs]
    exact kept_runs (kept_mutate h hA m data) _ _ _
  | add m q =>
    obtain ⟨v, l, h1, h2, h3, h4⟩ := h.conf
    have hA' := (step_all hA (fun _ => rfl) hC (d := ⟨fun n => (find s.config n).map fun v => v.value.getD [], s.collect⟩) rfl hu).1
    refine kept_write h.boot ?_ hA'.good hA'.nodup hA.size ?_
    · show ∃ v l, find (put q.apply (m.take 31) s.config) n = some v ∧ _
      rw [find_put]
      by_cases hm : n = m.take 31
      · rw [if_pos hm, ← hm, h1]
        refine ⟨_, l, rfl, ?_, h3, h4⟩
        show q.interval.or v.interval = some i
        rcases hl hm.symm with hq | hq
        · rw [hq]; exact h2
        · rw [hq]; rfl
      · rw [if_neg hm]
        exact ⟨v, l, h1, h2, h3, h4⟩
    · intro hpg
      have := (hA.none_ hpg).1
      have := length_put q.apply (m.take 31) s.config
      show (put q.apply (m.take 31) s.config).length ≤ 95
      omega
  | remove m =>
    show Kept n t i (removeVariable s m)
    unfold removeVariable
    split
    next hf =>
      obtain ⟨v, l, h1, h2, h3, h4⟩ := h.conf
      have hmn : n ≠ m := Ne.symm hl
      refine kept_write h.boot ?_ (fun e he => hA.good e (List.mem_filter.mp he).1)
        (List.Nodup.sublist (List.Sublist.map _ List.filter_sublist) hA.nodup) hA.size ?_
      · show ∃ v l, find (s.config.filter (·.1 ≠ m)) n = some v ∧ _
        rw [find_filter, if_neg hmn]
        exact ⟨v, l, h1, h2, h3, h4⟩
      · intro hpg
        have := (hA.none_ hpg).1
        have h2 : (s.config.filter (·.1 ≠ m)).length ≤ s.config.length := List.length_filter_le _ _
        show (s.config.filter (·.1 ≠ m)).length ≤ 95
        omega
    next => exact h

theorem coll_all {s : State} (hA : Agree s) (hC : Coll s) (ops : List Op) (hu : AllUsual s ops) : Agree (ops.foldl step s) ∧ Coll (ops.foldl step s) := by
  obtain ⟨a, _, c, _⟩ := run_all ops s ⟨fun n => (find s.config n).map fun v => v.value.getD [], s.collect⟩ hA (fun _ => rfl) hC rfl hu
  exact ⟨a, c⟩

theorem kept_all {n : Bytes} {t i : Nat} : ∀ (ops : List Op) (s : State), Agree s → Coll s → Kept n t i s → AllUsual s ops → AllLeave n i s ops →
    Kept n t i (ops.foldl step s)
  | [], _, _, _, h, _, _ => h
  | o :: ops, s, hA, hC, h, hu, hl => by
    obtain ⟨a, c⟩ := coll_all hA hC [o] ⟨hu.1, trivial⟩
    exact kept_all ops (step s o) a c (kept_step hA hC h hu.1 hl.1) hu.2 hl.2

theorem starts_of {s : State} {st : Start} (h : st ∈ startsOf s) :
    ∃ p, (collectAll s).page = some p ∧ ∃ r ∈ p.all, due s.boot r = true ∧ st = ⟨r.name, r.target, waitOf r⟩ ∧ r.name ≠ [] ∧ r.target ≠ [] ∧
      r.name ∉ if isUrl r.target then (collectAll s).gets else (collectAll s).runs := by
  have hboot : (collectAll s).boot = s.boot := by
    show (s.collect.foldl collectOne s).boot = s.boot
    generalize s.collect = l
    have : ∀ (l : List (Bytes × Bytes)) (s : State), (l.foldl collectOne s).boot = s.boot := by
      intro l
      induction l with
      | nil => exact fun _ => rfl
      | cons e l ih =>
        intro s
        rw [List.foldl_cons, ih]
        unfold collectOne
        split <;> rfl
    exact this l s
  unfold startsOf loopOf at h
  rw [hboot] at h
  cases hp : (collectAll s).page with
  | none => rw [hp] at h; cases h
  | some p =>
    rw [hp] at h
    simp only [Option.map_some, Option.getD_some] at h
    obtain ⟨new, h1, h2, _⟩ := fold_starts s.boot p.all ⟨(collectAll s).runs, (collectAll s).gets, s.boot + 10000, []⟩
    rw [h1, List.nil_append] at h
    exact ⟨p, rfl, h2 st h⟩

/-- C102: after the target of a variable gave a result, it is not started again before the interval of the variable has passed, whatever happens in between (also when the
controller restarts), as long as the variable is not removed, its interval is not changed and clocks do not go back. A target without an interval is not started again at all. -/
theorem C102_interval (b u : Nat) (before later : List Op) (o : Op) (n : Bytes) (v : Var) (i : Nat)
    (hu : AllUsual (fresh b u) (before ++ o :: later)) (hr : Result (run (fresh b u) before) n o) (hv : (n, v) ∈ (run (fresh b u) before).config)
    (hi : v.interval = some i) (hi32 : i < 4294967296) (hpos : 0 < (run (fresh b u) before).boot)
    (hl : AllLeave n i (run (fresh b u) (before ++ [o])) later) (hc : Usual (run (fresh b u) (before ++ o :: later)) .check)
    (st : Start) (hst : st ∈ startsOf (run (fresh b u) (before ++ o :: later))) (hn : st.name = n) :
    0 < i ∧ (run (fresh b u) before).boot + i ≤ (run (fresh b u) (before ++ o :: later)).boot := by
  have happ : ∀ (l1 l2 : List Op) (s : State), AllUsual s (l1 ++ l2) → AllUsual s l1 ∧ AllUsual (l1.foldl step s) l2 := by
    intro l1
    induction l1 with
    | nil => exact fun l2 s h => ⟨trivial, h⟩
    | cons x l1 ih =>
      intro l2 s h
      obtain ⟨a, c⟩ := ih l2 (step s x) h.2
      exact ⟨⟨h.1, a⟩, c⟩
  obtain ⟨hu1, hu2⟩ := happ before (o :: later) _ hu
  obtain ⟨hA, _, hC, _⟩ := run_fresh hu1
  change AllUsual (run (fresh b u) before) (o :: later) at hu2
  revert hr hv hpos hA hC hu2 hl hst hc
  have e1 : run (fresh b u) (before ++ [o]) = step (run (fresh b u) before) o := by unfold run; rw [List.foldl_append]; rfl
  have e2 : run (fresh b u) (before ++ o :: later) = later.foldl step (step (run (fresh b u) before) o) := by
    unfold run; rw [List.foldl_append]; rfl
  rw [e1, e2]
  generalize run (fresh b u) before = s
  intro hr hv hpos hl hc hst hA hC hu2
  have hfind : find s.config n = some v := find_of_mem hA.nodup hv
  have hk1 : Kept n s.boot i (step s o) := by
    cases o with
    | got m data =>
      obtain ⟨rfl, hg⟩ := hr
      have hs : step s (.got m data) = { mutateVariable s m data with gets := s.gets.filter (· ≠ m) } := by
        show (if m ∈ s.gets then _ else s) = _
        rw [if_pos hg]
      rw [hs]
      exact kept_runs (kept_result hA hfind hi data) _ _ _
    | check => exact (kept_check hA hC hu2.1 (.inr ⟨rfl, ⟨v, hfind, hi⟩, hr⟩)).2
    | _ => exact absurd hr id
  obtain ⟨hA1, hC1⟩ := coll_all hA hC [o] ⟨hu2.1, trivial⟩
  change Agree (step s o) at hA1
  change Coll (step s o) at hC1
  have hk2 := kept_all later (step s o) hA1 hC1 hk1 hu2.2 hl
  obtain ⟨hA2, hC2⟩ := coll_all hA1 hC1 later hu2.2
  generalize hs' : later.foldl step (step s o) = s' at *
  have hk3 := (kept_check hA2 hC2 hc (.inl hk2)).1
  obtain ⟨p, hp, r, hrp, hd, rfl, _, _, _⟩ := starts_of hst
  have hlast := hk3.recs p hp r hrp hn
  -- the interval in the page is that of the configuration
  have hint : r.interval = i := by
    have hA3 : Agree (collectAll s') := by
      by_cases hpg : s'.page = none
      · have hnil : s'.collect = [] := by
          cases hcc : s'.collect with
          | nil => rfl
          | cons x l =>
            have := hC2.1 x (by rw [hcc]; simp)
            rw [(hA2.none_ hpg).2.2.1] at this; cases this
        have hca : collectAll s' = s' := by
          unfold collectAll
          rw [hnil]
          show { s' with collect := [] } = s'
          rw [← hnil]
        rw [hca]; exact hA2
      · obtain ⟨i1, _, i3⟩ := collect_fold s'.collect s' ⟨fun n => (find s'.config n).map fun v => v.value.getD [], []⟩ hA2 (fun _ => rfl)
          hC2.1 hC2.2 (fun e he => mem_names.mpr (hc e he))
        unfold collectAll
        exact agree_runs i1 (fun hh => hpg (i3.mp hh)) _ _ _
    obtain ⟨w, l, hw, hwi, _, _⟩ := hk3.conf
    have hsh := (hA3.page p hp).2.2
    have hmem : shape r ∈ (collectAll s').config.map fun e => shape (recOf 0 0 e) := by
      rw [← hsh]; exact List.mem_map_of_mem hrp
    obtain ⟨e, he, heq⟩ := List.mem_map.mp hmem
    have hname : e.1 = n := by
      have h1 : (shape (recOf 0 0 e)).name = e.1 := cstr_name (hA3.good e he)
      rw [← h1, heq]; exact hn
    have h2 := find_of_mem hA3.nodup he
    rw [hname, hw] at h2
    cases h2
    have h3 : (shape (recOf 0 0 e)).interval = r.interval := by rw [heq]; rfl
    rw [← h3]
    show u32 (e.2.interval.getD 0) = i
    rw [hwi]
    unfold u32
    exact Nat.mod_eq_of_lt hi32
  unfold due at hd
  rw [hint] at hd
  simp only [decide_eq_true_eq] at hd
  rcases hd with hd | ⟨hd1, hd2⟩
  · omega
  · exact ⟨by omega, by omega⟩

/-- C102: a check starts only targets of configured variables, gives them the configured time (at least one second; without one the interval), and never starts a program or a
download for a variable while one runs for it. -/
theorem C102_started (s : State) (hs : ∃ b u ops, AllUsual (fresh b u) ops ∧ s = run (fresh b u) ops) (hc : Usual s .check) :
    (∀ st ∈ startsOf s, ∃ v, (st.name, v) ∈ s.config ∧ st.target = cstr 512 (v.target.getD []) ∧ st.target ≠ [] ∧
      st.wait = max 1000 (if u32 (v.waitTime.getD 0) = 0 then u32 (v.interval.getD 0) else u32 (v.waitTime.getD 0)) ∧
      (isUrl st.target = false → st.name ∈ s.runs → ∃ e ∈ s.collect, e.1 = st.name) ∧ (isUrl st.target = true → st.name ∉ s.gets)) ∧
    (startsOf s).Pairwise (fun a b => a.name = b.name → isUrl a.target ≠ isUrl b.target) := by
  obtain ⟨b, u, ops, hu, rfl⟩ := hs
  obtain ⟨hA, _, hC, _⟩ := run_fresh hu
  generalize run (fresh b u) ops = s at *
  have hmono : ∀ (l : List (Bytes × Bytes)) (s : State), (∀ m ∈ s.runs, (∀ e ∈ l, e.1 ≠ m) → m ∈ (l.foldl collectOne s).runs) ∧
      (l.foldl collectOne s).gets = s.gets := by
    intro l
    induction l with
    | nil => exact fun s => ⟨fun m hm _ => hm, rfl⟩
    | cons e l ih =>
      intro s
      rw [List.foldl_cons]
      obtain ⟨i1, i2⟩ := ih (collectOne s e)
      refine ⟨fun m hm hne => i1 m ?_ (fun x hx => hne x (by simp [hx])), ?_⟩
      · unfold collectOne
        split
        · rw [List.mem_filter]
          exact ⟨hm, by simpa using Ne.symm (hne e (by simp))⟩
        · exact hm
      · rw [i2]; unfold collectOne; split <;> rfl
  constructor
  · intro st hst
    obtain ⟨p, hp, r, hrp, hd, rfl, hn1, ht1, hm1⟩ := starts_of hst
    have hpg : s.page ≠ none := by
      intro hpg
      have hnil : s.collect = [] := by
        cases hcc : s.collect with
        | nil => rfl
        | cons x l =>
          have := hC.1 x (by rw [hcc]; simp)
          rw [(hA.none_ hpg).2.2.1] at this; cases this
      have : (collectAll s).page = s.page := by unfold collectAll; rw [hnil]; rfl
      rw [this, hpg] at hp; cases hp
    have hcf : ∀ (l : List (Bytes × Bytes)) (q : State), (∀ e ∈ l, e.1 ∈ q.config.map (·.1)) → ∀ n v, find (l.foldl collectOne q).config n = some v →
        ∃ w, find q.config n = some w ∧ w.target = v.target ∧ w.interval = v.interval ∧ w.waitTime = v.waitTime := by
      intro l
      induction l with
      | nil => exact fun q _ n v h => ⟨v, h, rfl, rfl, rfl⟩
      | cons e l ih =>
        intro q hq n v h
        have hnames : (collectOne q e).config.map (·.1) = q.config.map (·.1) := by
          unfold collectOne
          split
          · exact names_mutate (hq e (by simp)) e.2
          · rfl
        obtain ⟨w, hw, h1, h2, h3⟩ := ih (collectOne q e) (by rw [hnames]; exact fun x hx => hq x (by simp [hx])) n v h
        have hcc : (collectOne q e).config = q.config ∨
            (collectOne q e).config = put (fun v => { v with lastunix := some q.unix, value := some (trimmed e.2) }) e.1 q.config := by
          unfold collectOne
          split
          · exact .inr rfl
          · exact .inl rfl
        rcases hcc with hcc | hcc
        · rw [hcc] at hw; exact ⟨w, hw, h1, h2, h3⟩
        · rw [hcc, find_put] at hw
          by_cases hne : n = e.1
          · rw [if_pos hne] at hw
            have hw := Option.some.inj hw
            subst hw
            have := hq e (by simp)
            rw [← hne, ← find_isSome] at this
            obtain ⟨x, hx⟩ := Option.isSome_iff_exists.mp this
            refine ⟨x, hx, ?_, ?_, ?_⟩
            · rw [← h1, ← hne, hx]; rfl
            · rw [← h2, ← hne, hx]; rfl
            · rw [← h3, ← hne, hx]; rfl
          · rw [if_neg hne] at hw; exact ⟨w, hw, h1, h2, h3⟩
    obtain ⟨i1, _, i3⟩ := collect_fold s.collect s ⟨fun n => (find s.config n).map fun v => v.value.getD [], []⟩ hA (fun _ => rfl) hC.1 hC.2
      (fun e he => mem_names.mpr (hc e he))
    have hA3 : Agree (collectAll s) := by
      unfold collectAll
      exact agree_runs i1 (fun hh => hpg (i3.mp hh)) _ _ _
    have hsh := (hA3.page p hp).2.2
    have hmem : shape r ∈ (collectAll s).config.map fun e => shape (recOf 0 0 e) := by
      rw [← hsh]; exact List.mem_map_of_mem hrp
    obtain ⟨e, he, heq⟩ := List.mem_map.mp hmem
    have hname : e.1 = r.name := by
      have h1 : (shape (recOf 0 0 e)).name = e.1 := cstr_name (hA3.good e he)
      rw [← h1, heq]; rfl
    have hfe := find_of_mem hA3.nodup he
    rw [hname] at hfe
    obtain ⟨w, hw, w1, w2, w3⟩ := hcf s.collect s (fun e he => mem_names.mpr (hc e he)) r.name e.2 hfe
    have hwm : (r.name, w) ∈ s.config := by
      unfold find at hw
      rw [Option.map_eq_some_iff] at hw
      obtain ⟨x, hx, rfl⟩ := hw
      have h1 := List.mem_of_find?_eq_some hx
      have h2 : x.1 = r.name := by simpa using List.find?_some hx
      rw [← h2]; exact h1
    have ht : r.target = cstr 512 (w.target.getD []) := by
      have : (shape (recOf 0 0 e)).target = r.target := by rw [heq]; rfl
      rw [← this, w1]; rfl
    have hi : r.interval = u32 (w.interval.getD 0) := by
      have : (shape (recOf 0 0 e)).interval = r.interval := by rw [heq]; rfl
      rw [← this, w2]; rfl
    have hw' : r.waitTime = u32 (w.waitTime.getD 0) := by
      have : (shape (recOf 0 0 e)).waitTime = r.waitTime := by rw [heq]; rfl
      rw [← this, w3]; rfl
    refine ⟨w, hwm, ht, ht1, ?_, ?_, ?_⟩
    · show waitOf r = _
      unfold waitOf
      rw [hi, hw']
    · intro hurl hrun
      rw [hurl] at hm1
      apply Classical.byContradiction
      intro hno
      apply hm1
      exact (hmono s.collect s).1 r.name hrun (fun e he hh => hno ⟨e, he, hh⟩)
    · intro hurl
      rw [hurl] at hm1
      have : (collectAll s).gets = s.gets := (hmono s.collect s).2
      rw [← this]
      exact hm1
  · unfold startsOf loopOf
    obtain ⟨new, h1, _, _, h4, _⟩ := fold_starts (collectAll s).boot (((collectAll s).page.map Page.all).getD [])
      ⟨(collectAll s).runs, (collectAll s).gets, (collectAll s).boot + 10000, []⟩
    rw [h1]
    exact h4

end Verif.Vars
