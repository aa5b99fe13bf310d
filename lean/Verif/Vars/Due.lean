import Verif.Vars.Sched

/-!
# C102: targets of custom variables that are due are started
-/
namespace Verif.Vars
open Verif Verif.Text Spec

/-- The page has a record of the variable that was last run at `t`. -/
def Last (n : Bytes) (t : Nat) (tg : Bytes) (iv : Nat) (s : State) : Prop :=
  ∃ p, s.page = some p ∧ ∃ r ∈ p.all, r.name = n ∧ r.lastRun = t ∧ r.target = tg ∧ r.interval = iv

theorem last_mutate {n : Bytes} {t : Nat} {tg : Bytes} {iv : Nat} {s : State} (h : Last n t tg iv s) (hA : Agree s) {m : Bytes} (hm : m ≠ n) (out : Bytes) :
    Last n t tg iv (mutateVariable s m out) := by
  obtain ⟨p, hp, r, hr, h1, h2, h3, h4⟩ := h
  obtain ⟨q, hq, ha⟩ := all_of_mutate hA hp m out
  refine ⟨q, hq, touched m (trimmed out) s.boot r, by rw [ha]; exact List.mem_map_of_mem hr, ?_⟩
  unfold touched
  rw [if_neg (by rw [h1]; exact Ne.symm hm)]
  exact ⟨h1, h2, h3, h4⟩

theorem last_result {n : Bytes} {s : State} (hA : Agree s) (hpg : s.page ≠ none) {v : Var} (hv : find s.config n = some v) (out : Bytes) :
    Last n s.boot (cstr 512 (v.target.getD [])) (u32 (v.interval.getD 0)) (mutateVariable s n out) := by
  cases hp : s.page with
  | none => exact absurd hp hpg
  | some p =>
    obtain ⟨q, hq, ha⟩ := all_of_mutate hA hp n out
    have hmem : (n, v) ∈ s.config := by
      unfold find at hv
      rw [Option.map_eq_some_iff] at hv
      obtain ⟨x, hx, rfl⟩ := hv
      have h1 := List.mem_of_find?_eq_some hx
      have h2 : x.1 = n := by simpa using List.find?_some hx
      rw [← h2]; exact h1
    have hsh : shape (recOf 0 0 (n, v)) ∈ p.all.map shape := by
      rw [(hA.page p hp).2.2]
      exact List.mem_map_of_mem (f := fun e => shape (recOf 0 0 e)) hmem
    obtain ⟨r, hr, heq⟩ := List.mem_map.mp hsh
    have hname : r.name = n := by
      have h1 : (shape r).name = n := by rw [heq]; exact cstr_name (hA.good _ hmem)
      exact h1
    refine ⟨q, hq, touched n (trimmed out) s.boot r, by rw [ha]; exact List.mem_map_of_mem hr, ?_⟩
    unfold touched
    rw [if_pos hname]
    refine ⟨hname, rfl, ?_, ?_⟩
    · have h1 : (shape r).target = _ := congrArg Rec.target heq
      exact h1
    · have h1 : (shape r).interval = _ := congrArg Rec.interval heq
      exact h1

theorem stale_step {s : State} (h : s.page ≠ none → s.stale = false) (o : Op) : (step s o).page ≠ none → (step s o).stale = false := by
  have hm : ∀ (s : State) (m out : Bytes), (s.page ≠ none → s.stale = false) → (mutateVariable s m out).page ≠ none → (mutateVariable s m out).stale = false := by
    intro s m out h hp
    have hp' : s.page ≠ none := fun hh => hp ((page_mutate m out).mpr hh)
    show (s.stale || s.page.isNone) = false
    rw [h hp']
    cases hh : s.page with
    | none => exact absurd hh hp'
    | some p => rfl
  cases o with
  | clock b u => exact h
  | refused n => exact h
  | failed n => exact h
  | finish n out => exact h
  | restart => exact fun hh => absurd rfl hh
  | add n q => exact fun _ => rfl
  | remove n =>
    show (removeVariable s n).page ≠ none → (removeVariable s n).stale = false
    unfold removeVariable
    split
    · exact fun _ => rfl
    · exact h
  | got n d =>
    unfold step
    dsimp only
    split
    · exact hm s n d h
    · exact h
  | check =>
    have hf : ∀ (l : List (Bytes × Bytes)) (s : State), (s.page ≠ none → s.stale = false) → ((l.foldl collectOne s).page ≠ none → (l.foldl collectOne s).stale = false) := by
      intro l
      induction l with
      | nil => exact fun s h => h
      | cons e l ih =>
        intro s h
        refine ih (collectOne s e) ?_
        unfold collectOne
        split
        · exact hm s e.1 e.2 h
        · exact h
    have := hf s.collect s h
    show (flush _).page ≠ none → (flush _).stale = false
    unfold flush
    split
    · exact fun _ => rfl
    · exact this

theorem stale_all (ops : List Op) : ∀ (s : State), (s.page ≠ none → s.stale = false) → (ops.foldl step s).page ≠ none → (ops.foldl step s).stale = false := by
  induction ops with
  | nil => exact fun _ h => h
  | cons o ops ih => exact fun s h => ih (step s o) (stale_step h o)

theorem last_fold {n : Bytes} {t : Nat} {v : Var} (l : List (Bytes × Bytes)) : ∀ (s : State), Agree s → (∀ e ∈ l, e.1 ∈ s.runs) →
    (l.map (·.1)).Nodup → (∀ e ∈ l, e.1 ∈ s.config.map (·.1)) →
    ((Last n t (cstr 512 (v.target.getD [])) (u32 (v.interval.getD 0)) s ∧ ∀ e ∈ l, e.1 ≠ n) ∨
      (t = s.boot ∧ find s.config n = some v ∧ ∃ e ∈ l, e.1 = n)) →
    Last n t (cstr 512 (v.target.getD [])) (u32 (v.interval.getD 0)) (l.foldl collectOne s) := by
  induction l with
  | nil =>
    intro s _ _ _ _ h
    rcases h with h | ⟨_, _, e, he, _⟩
    · exact h.1
    · cases he
  | cons e l ih =>
    intro s h hr hd hc hk
    rw [List.map_cons, List.nodup_cons] at hd
    have he : e.1 ∈ s.runs := hr e (by simp)
    have hec : e.1 ∈ s.config.map (·.1) := hc e (by simp)
    have hpn : s.page ≠ none := fun hp => by
      have := (h.none_ hp).2.2.1
      rw [this] at he; cases he
    have hm := agree_mutate h hpn hec e.2
    have hone : collectOne s e = { mutateVariable s e.1 e.2 with runs := s.runs.filter (· ≠ e.1) } := by
      unfold collectOne; rw [if_pos he]
    have hA : Agree (collectOne s e) := by
      rw [hone]
      exact agree_runs hm (fun hh => hpn ((page_mutate _ _).mp hh)) _ _ _
    have hcfg : (collectOne s e).config.map (·.1) = s.config.map (·.1) := by rw [hone]; exact names_mutate hec e.2
    have hruns : (collectOne s e).runs = s.runs.filter (· ≠ e.1) := by rw [hone]
    have hrest : ∀ x ∈ l, x.1 ∈ (collectOne s e).runs := by
      intro x hx
      rw [hruns, List.mem_filter]
      refine ⟨hr x (by simp [hx]), ?_⟩
      have : x.1 ≠ e.1 := fun hh => hd.1 (by rw [← hh]; exact List.mem_map_of_mem hx)
      simpa using this
    refine ih (collectOne s e) hA hrest hd.2 (by rw [hcfg]; exact fun x hx => hc x (by simp [hx])) ?_
    rcases hk with ⟨hk, hne⟩ | ⟨ht, hv, x, hx, hxn⟩
    · left
      refine ⟨?_, fun x hx => hne x (by simp [hx])⟩
      rw [hone]
      exact last_mutate hk h (hne e (by simp)) e.2
    · by_cases hen : e.1 = n
      · left
        refine ⟨?_, fun x hx hh => hd.1 (by rw [hen, ← hh]; exact List.mem_map_of_mem hx)⟩
        rw [hone, ht, hen]
        exact last_result h hpn hv e.2
      · right
        have hb : (collectOne s e).boot = s.boot := by rw [hone]; rfl
        refine ⟨by rw [hb]; exact ht, ?_, ?_⟩
        · have hcc : (collectOne s e).config = put (fun v => { v with lastunix := some s.unix, value := some (trimmed e.2) }) e.1 s.config := by
            rw [hone]; rfl
          rw [hcc, find_put, if_neg (Ne.symm hen)]
          exact hv
        · rcases List.mem_cons.mp hx with rfl | hx
          · exact absurd hxn hen
          · exact ⟨x, hx, hxn⟩

/-- Nothing that makes the controller write all variables to shared memory again, and no result of the variable. -/
def Quiet (s : State) (n : Bytes) : Op → Prop
  | .clock _ _ | .finish _ _ | .failed _ => True
  | .check => ∀ e ∈ s.collect, e.1 ≠ n
  | .got m _ => m ≠ n
  | _ => False

/-- All events of a history are like that. -/
def AllQuiet (n : Bytes) : State → List Op → Prop
  | _, [] => True
  | s, o :: l => Quiet s n o ∧ AllQuiet n (step s o) l

theorem last_check {n : Bytes} {t : Nat} {v : Var} {s : State} (hA : Agree s) (hC : Coll s) (hst : s.page ≠ none → s.stale = false) (hu : Usual s .check)
    (hk : (Last n t (cstr 512 (v.target.getD [])) (u32 (v.interval.getD 0)) s ∧ ∀ e ∈ s.collect, e.1 ≠ n) ∨
      (t = s.boot ∧ find s.config n = some v ∧ ∃ e ∈ s.collect, e.1 = n)) :
    Last n t (cstr 512 (v.target.getD [])) (u32 (v.interval.getD 0)) (collectAll s) ∧
    Last n t (cstr 512 (v.target.getD [])) (u32 (v.interval.getD 0)) (step s .check) := by
  have hf := last_fold s.collect s hA hC.1 hC.2 (fun e he => mem_names.mpr (hu e he)) hk
  have h1 : Last n t (cstr 512 (v.target.getD [])) (u32 (v.interval.getD 0)) (collectAll s) := hf
  refine ⟨h1, ?_⟩
  have hsf : (collectAll s).stale = false := by
    have hh : ∀ (l : List (Bytes × Bytes)) (s : State), (s.page ≠ none → s.stale = false) → ((l.foldl collectOne s).page ≠ none → (l.foldl collectOne s).stale = false) := by
      intro l
      induction l with
      | nil => exact fun s h => h
      | cons e l ih =>
        intro s h
        refine ih (collectOne s e) ?_
        unfold collectOne
        split
        · intro hp
          have hp' : s.page ≠ none := fun hh => hp ((page_mutate e.1 e.2).mpr hh)
          show (s.stale || s.page.isNone) = false
          rw [h hp']
          cases hh : s.page with
          | none => exact absurd hh hp'
          | some p => rfl
        · exact h
    refine hh s.collect s hst ?_
    obtain ⟨p, hp, _⟩ := hf
    rw [hp]; exact fun hh => (by cases hh)
  show Last _ _ _ _ (flush _)
  unfold flush
  rw [if_neg (by
    show ¬ (collectAll s).stale = true
    rw [hsf]; exact Bool.false_ne_true)]
  exact h1

theorem last_step {n : Bytes} {t : Nat} {v : Var} {s : State} (hA : Agree s) (hC : Coll s) (hst : s.page ≠ none → s.stale = false)
    (h : Last n t (cstr 512 (v.target.getD [])) (u32 (v.interval.getD 0)) s) {o : Op} (hu : Usual s o) (hq : Quiet s n o) :
    Last n t (cstr 512 (v.target.getD [])) (u32 (v.interval.getD 0)) (step s o) := by
  cases o with
  | clock b u => exact h
  | failed m => exact h
  | finish m out => exact h
  | check => exact (last_check hA hC hst hu (.inl ⟨h, hq⟩)).2
  | got m data =>
    have hs : step s (.got m data) = { mutateVariable s m data with gets := s.gets.filter (· ≠ m) } := by
      show (if m ∈ s.gets then _ else s) = _
      rw [if_pos hu.1]
    rw [hs]
    exact last_mutate h hA hq data
  | _ => exact absurd hq id

theorem last_all {n : Bytes} {t : Nat} {v : Var} : ∀ (ops : List Op) (s : State), Agree s → Coll s → (s.page ≠ none → s.stale = false) →
    Last n t (cstr 512 (v.target.getD [])) (u32 (v.interval.getD 0)) s → AllUsual s ops → AllQuiet n s ops →
    Last n t (cstr 512 (v.target.getD [])) (u32 (v.interval.getD 0)) (ops.foldl step s)
  | [], _, _, _, _, h, _, _ => h
  | o :: ops, s, hA, hC, hst, h, hu, hl => by
    obtain ⟨a, c⟩ := coll_all hA hC [o] ⟨hu.1, trivial⟩
    exact last_all ops (step s o) a c (stale_step hst o) (last_step hA hC hst h hu.1 hl.1) hu.2 hl.2

theorem lower_next (l : Loop) (r : Rec) (a : Nat) : (lower l r a).next ≤ l.next ∧ (r.interval ≠ 0 → (lower l r a).next ≤ a) := by
  unfold lower
  split
  · dsimp only; exact ⟨by omega, fun _ => Nat.le_refl _⟩
  · next h => exact ⟨Nat.le_refl _, fun hi => by
      have : ¬ a < l.next := fun hh => h ⟨hi, hh⟩
      omega⟩

theorem visit_next (now : Nat) (l : Loop) (r : Rec) : (visit now l r).next ≤ l.next ∧
    (r.name ≠ [] → r.target ≠ [] → due now r = false → r.interval ≠ 0 → (visit now l r).next ≤ r.lastRun + r.interval) := by
  unfold visit
  split
  · next h => exact ⟨Nat.le_refl _, fun h1 h2 => by rcases h with h | h <;> contradiction⟩
  · split
    · next hd =>
      refine ⟨?_, fun _ _ h => by rw [hd] at h; cases h⟩
      split <;> split <;> first | exact (lower_next _ _ _).1 | exact Nat.le_refl _
    · exact ⟨(lower_next _ _ _).1, fun _ _ _ hi => (lower_next _ _ _).2 hi⟩

theorem fold_next (now : Nat) : ∀ (rs : List Rec) (l : Loop), (rs.foldl (visit now) l).next ≤ l.next ∧
    ∀ r ∈ rs, r.name ≠ [] → r.target ≠ [] → due now r = false → r.interval ≠ 0 → (rs.foldl (visit now) l).next ≤ r.lastRun + r.interval
  | [], l => ⟨Nat.le_refl _, fun r hr => (by cases hr)⟩
  | x :: rs, l => by
    rw [List.foldl_cons]
    obtain ⟨h1, h2⟩ := fold_next now rs (visit now l x)
    obtain ⟨h3, h4⟩ := visit_next now l x
    refine ⟨Nat.le_trans h1 h3, ?_⟩
    intro r hr a b c d
    rcases List.mem_cons.mp hr with rfl | hr
    · exact Nat.le_trans h1 (h4 a b c d)
    · exact h2 r hr a b c d

/-- C102 (what is missing: see `C102_late_fails` for what happens when variables are written to shared memory again, and `C102_again_fails` for when the controller looks next): after a
result of the target of a variable, while no variables are added or removed and the controller is not restarted, the first check at which the interval has passed starts the target
again, unless it still runs; and every check before that asks to be called again before the interval has passed. -/
theorem C102_due_partial (b u : Nat) (before later : List Op) (o : Op) (n : Bytes) (v : Var) (i : Nat)
    (hu : AllUsual (fresh b u) (before ++ o :: later)) (hr : Result (run (fresh b u) before) n o) (hv : (n, v) ∈ (run (fresh b u) before).config)
    (hi : v.interval = some i) (hi0 : 0 < i) (hi32 : i < 4294967296) (hn : n ≠ []) (ht : cstr 512 (v.target.getD []) ≠ []) (hpos : 0 < (run (fresh b u) before).boot)
    (hl : AllQuiet n (run (fresh b u) (before ++ [o])) later) (hc : Usual (run (fresh b u) (before ++ o :: later)) .check)
    (hq : Quiet (run (fresh b u) (before ++ o :: later)) n .check) :
    ((run (fresh b u) before).boot + i ≤ (run (fresh b u) (before ++ o :: later)).boot →
      (n ∉ if isUrl (cstr 512 (v.target.getD [])) then (run (fresh b u) (before ++ o :: later)).gets else (run (fresh b u) (before ++ o :: later)).runs) →
      ∃ st ∈ startsOf (run (fresh b u) (before ++ o :: later)), st.name = n) ∧
    ((run (fresh b u) (before ++ o :: later)).boot < (run (fresh b u) before).boot + i →
      (run (fresh b u) (before ++ o :: later)).boot + delayOf (run (fresh b u) (before ++ o :: later)) ≤ (run (fresh b u) before).boot + i) := by
  have happ : ∀ (l1 l2 : List Op) (s : State), AllUsual s (l1 ++ l2) → AllUsual s l1 ∧ AllUsual (l1.foldl step s) l2 := by
    intro l1
    induction l1 with
    | nil => exact fun l2 s h => ⟨trivial, h⟩
    | cons x l1 ih =>
      intro l2 s h
      obtain ⟨a, c⟩ := ih l2 (step s x) h.2
      exact ⟨⟨h.1, a⟩, c⟩
  obtain ⟨hu1, hu2⟩ := happ before (o :: later) _ hu
  obtain ⟨hA, _, hC, _⟩ := run_fresh hu1
  have hst := stale_all before (fresh b u) (fun hh => absurd rfl hh)
  change AllUsual (run (fresh b u) before) (o :: later) at hu2
  change (run (fresh b u) before).page ≠ none → (run (fresh b u) before).stale = false at hst
  revert hr hv hpos hA hC hu2 hl hc hq hst
  have e1 : run (fresh b u) (before ++ [o]) = step (run (fresh b u) before) o := by unfold run; rw [List.foldl_append]; rfl
  have e2 : run (fresh b u) (before ++ o :: later) = later.foldl step (step (run (fresh b u) before) o) := by
    unfold run; rw [List.foldl_append]; rfl
  rw [e1, e2]
  generalize run (fresh b u) before = s
  intro hr hv hpos hl hc hq hA hC hu2 hst
  have hfind : find s.config n = some v := find_of_mem hA.nodup hv
  have hk1 : Last n s.boot (cstr 512 (v.target.getD [])) (u32 (v.interval.getD 0)) (step s o) := by
    cases o with
    | got m data =>
      obtain ⟨rfl, hg⟩ := hr
      have hs : step s (.got m data) = { mutateVariable s m data with gets := s.gets.filter (· ≠ m) } := by
        show (if m ∈ s.gets then _ else s) = _
        rw [if_pos hg]
      rw [hs]
      have hpn : s.page ≠ none := fun hp => by
        have := (hA.none_ hp).2.2.2
        rw [this] at hg; cases hg
      exact last_result hA hpn hfind data
    | check => exact (last_check hA hC hst hu2.1 (.inr ⟨rfl, hfind, hr⟩)).2
    | _ => exact absurd hr id
  obtain ⟨hA1, hC1⟩ := coll_all hA hC [o] ⟨hu2.1, trivial⟩
  change Agree (step s o) at hA1
  change Coll (step s o) at hC1
  have hst1 := stale_step hst o
  have hk2 := last_all later (step s o) hA1 hC1 hst1 hk1 hu2.2 hl
  have hst2 := stale_all later _ hst1
  obtain ⟨hA2, hC2⟩ := coll_all hA1 hC1 later hu2.2
  generalize hs' : later.foldl step (step s o) = s' at *
  obtain ⟨p, hp, r, hrp, h1, h2, h3, h4⟩ := (last_check hA2 hC2 hst2 hc (.inl ⟨hk2, hq⟩)).1
  have hiv : r.interval = i := by
    rw [h4, hi]
    unfold u32
    exact Nat.mod_eq_of_lt hi32
  have hkeep : ∀ (l : List (Bytes × Bytes)) (s : State), (l.foldl collectOne s).boot = s.boot ∧ (l.foldl collectOne s).gets = s.gets ∧
      ∀ m ∈ (l.foldl collectOne s).runs, m ∈ s.runs := by
    intro l
    induction l with
    | nil => exact fun _ => ⟨rfl, rfl, fun _ h => h⟩
    | cons e l ih =>
      intro s
      rw [List.foldl_cons]
      obtain ⟨a, c, d⟩ := ih (collectOne s e)
      unfold collectOne at a c d ⊢
      split at a
      next he =>
        rw [if_pos he] at c d ⊢
        exact ⟨a, c, fun m hm => (List.mem_filter.mp (d m hm)).1⟩
      next he =>
        rw [if_neg he] at c d ⊢
        exact ⟨a, c, d⟩
  obtain ⟨k1, k2, k3⟩ := hkeep s'.collect s'
  change (collectAll s').boot = s'.boot at k1
  change (collectAll s').gets = s'.gets at k2
  change ∀ m ∈ (collectAll s').runs, m ∈ s'.runs at k3
  unfold startsOf delayOf loopOf
  rw [hp, k1]
  simp only [Option.map_some, Option.getD_some]
  constructor
  · intro hle hidle
    obtain ⟨new, n1, _, n3, _⟩ := fold_starts s'.boot p.all ⟨(collectAll s').runs, (collectAll s').gets, s'.boot + 10000, []⟩
    obtain ⟨st, hst, hsn, _⟩ := n3 r hrp (by
        unfold due
        rw [hiv, h2]
        simp only [decide_eq_true_eq]
        right
        exact ⟨by omega, hle⟩) (by rw [h1]; exact hn) (by rw [h3]; exact ht) (by
        rw [h1, h3]
        dsimp only
        intro hin
        apply hidle
        split
        next hh => rw [if_pos hh] at hin; rw [← k2]; exact hin
        next hh => rw [if_neg hh] at hin; exact k3 n hin)
    rw [n1]
    exact ⟨st, by rw [List.nil_append]; exact hst, hsn.trans h1⟩
  · intro hlt
    have := (fold_next s'.boot p.all ⟨(collectAll s').runs, (collectAll s').gets, s'.boot + 10000, []⟩).2 r hrp (by rw [h1]; exact hn) (by rw [h3]; exact ht)
      (by
        unfold due
        rw [hiv, h2]
        simp only [decide_eq_false_iff_not, not_or, not_and]
        exact ⟨by omega, fun _ => by omega⟩) (by omega)
    rw [hiv, h2] at this
    omega

end Verif.Vars
