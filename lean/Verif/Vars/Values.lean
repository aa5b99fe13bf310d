import Verif.Vars.Lemmas
import Verif.Vars.Spec

/-!
# C102: the values of custom variables
-/
namespace Verif.Vars
open Verif Verif.Text Spec

/-- A record without its time. -/
def shape (r : Rec) : Rec := { r with lastRun := 0 }

/-- The name can be stored. -/
def GoodName (n : Bytes) : Prop := n.length ≤ 31 ∧ 0 ∉ n

theorem cstr_name {n : Bytes} (h : GoodName n) : cstr 32 n = n := by
  unfold cstr
  rw [List.take_of_length_le (by have := h.1; omega)]
  have : ∀ l : Bytes, 0 ∉ l → l.takeWhile (· ≠ 0) = l := by
    intro l
    induction l with
    | nil => intro _; rfl
    | cons x l ih =>
      intro hl
      have hx : x ≠ 0 := fun h => hl (by simp [h])
      rw [List.takeWhile_cons_of_pos (by simp [hx]), ih (fun h => hl (by simp [h]))]
  exact this n h.2

/-- The page and the configuration agree. -/
structure Agree (s : State) : Prop where
  good : ∀ e ∈ s.config, GoodName e.1
  nodup : (s.config.map (·.1)).Nodup
  size : 65536 ≤ s.pageSize
  none_ : s.page = none → s.config.length < 95 ∧ s.stale = true ∧ s.runs = [] ∧ s.gets = []
  page : ∀ p, s.page = some p → s.stale = false ∧ Fit p ∧ p.all.map shape = s.config.map fun e => shape (recOf 0 0 e)

/-- The outputs to look at are of programs that were started, one of each. -/
def Coll (s : State) : Prop := (∀ e ∈ s.collect, e.1 ∈ s.runs) ∧ (s.collect.map (·.1)).Nodup

theorem shape_recOf (b u : Nat) (e : Bytes × Var) : shape (recOf b u e) = shape (recOf 0 0 e) := rfl

/-- Writing the page makes it agree. -/
theorem write_page {s : State} (hsz : 65536 ≤ s.pageSize) (hl : s.page = none → s.config.length ≤ 95) :
    ∃ p, (writeToShm s).page = some p ∧ Fit p ∧ p.all = s.config.map (recOf s.boot s.unix) := by
  have hcap : s.config.length ≤ (nextSize s - offset) / recSize := by
    rw [Nat.le_div_iff_mul_le (by decide)]
    unfold nextSize
    have hr : recSize = 688 := rfl
    have ho : offset = 88 := rfl
    cases hp : s.page with
    | none =>
      have := hl hp
      simp only [Option.isSome_none, Bool.false_eq_true, false_and, if_false]
      rw [hr, ho]; omega
    | some p =>
      simp only [Option.isSome_some, true_and]
      split
      · rw [hr, ho]; omega
      · rename_i h
        rw [hr, ho] at *; omega
  have := all_written ((nextSize s - offset) / recSize) (s.config.map (recOf s.boot s.unix)) (by rw [List.length_map]; exact hcap)
  rw [List.length_map] at this
  exact ⟨_, rfl, this⟩

theorem nextSize_le {s : State} (h : 65536 ≤ s.pageSize) : 65536 ≤ nextSize s := by
  unfold nextSize
  split
  · rename_i h'; omega
  · exact h

theorem agree_write {s : State} (hg : ∀ e ∈ s.config, GoodName e.1) (hn : (s.config.map (·.1)).Nodup) (hsz : 65536 ≤ s.pageSize)
    (hl : s.page = none → s.config.length ≤ 95) : Agree (writeToShm s) := by
  obtain ⟨p, hp, hf, ha⟩ := write_page hsz hl
  refine ⟨hg, hn, nextSize_le hsz, fun h => ?_, ?_⟩
  · rw [hp] at h; cases h
  · intro q hq
    rw [hp] at hq
    cases hq
    refine ⟨rfl, hf, ?_⟩
    rw [ha, List.map_map]
    rfl

theorem names_of_page {s : State} (h : Agree s) {p : Page} (hp : s.page = some p) : p.all.map (·.name) = s.config.map (·.1) := by
  have := (h.page p hp).2.2
  have h1 : (p.all.map shape).map (·.name) = p.all.map (·.name) := by rw [List.map_map]; rfl
  rw [← h1, this, List.map_map]
  apply List.map_congr_left
  intro e he
  exact cstr_name (h.good e he)

theorem shape_touched (name val : Bytes) (b : Nat) (r : Rec) : shape (touched name val b r) = touched name val 0 (shape r) := by
  unfold touched shape
  by_cases h : r.name = name <;> simp [h]

/-- A result for a variable that is there changes both alike. -/
theorem agree_mutate {s : State} (h : Agree s) (hp : s.page ≠ none) {n : Bytes} (hn : n ∈ s.config.map (·.1)) (out : Bytes) :
    Agree (mutateVariable s n out) := by
  have hpm := put_eq_map h.nodup hn (fun v => { v with lastunix := some s.unix, value := some (trimmed out) })
  have hnames : (mutateVariable s n out).config.map (·.1) = s.config.map (·.1) := by
    show (put _ n s.config).map (·.1) = _
    rw [names_put, if_pos hn]
  cases hpg : s.page with
  | none => exact absurd hpg hp
  | some p =>
    have hpage : (mutateVariable s n out).page = some ⟨mutatePage p.recs n (trimmed out) s.boot 0 p.endPos, p.endPos⟩ := by
      show s.page.map _ = _
      rw [hpg]; rfl
    obtain ⟨hst, hf, ha⟩ := h.page p hpg
    refine ⟨?_, by rw [hnames]; exact h.nodup, h.size, fun hh => (by rw [hpage] at hh; cases hh), ?_⟩
    · intro e he
      have : e.1 ∈ s.config.map (·.1) := by rw [← hnames]; exact List.mem_map_of_mem he
      obtain ⟨x, hx, hxe⟩ := List.mem_map.mp this
      rw [← hxe]; exact h.good x hx
    · intro q hq
      rw [hpage] at hq
      have hq' := Option.some.inj hq
      subst hq'
      obtain ⟨hf', ha'⟩ := all_mutate hf (by rw [names_of_page h hpg]; exact h.nodup) n (trimmed out) s.boot
      refine ⟨?_, hf', ?_⟩
      · show (s.stale || s.page.isNone) = false
        rw [hst, hpg]; rfl
      · rw [ha', List.map_map]
        show p.all.map (fun r => shape (touched n (trimmed out) s.boot r)) = (put _ n s.config).map _
        simp only [shape_touched]
        have hsplit : p.all.map (fun r => touched n (trimmed out) 0 (shape r)) = (p.all.map shape).map (touched n (trimmed out) 0) := by
          rw [List.map_map]; rfl
        rw [hsplit, ha, hpm, List.map_map, List.map_map]
        apply List.map_congr_left
        intro e he
        simp only [Function.comp_apply]
        have hname : (shape (recOf 0 0 e)).name = e.1 := cstr_name (h.good e he)
        unfold touched
        by_cases hee : e.1 = n
        · rw [if_pos (hname.trans hee), if_pos hee]
          rfl
        · rw [if_neg (fun x => hee (hname.symm.trans x)), if_neg hee]

/-- The values are those of the desk. -/
def Same (d : Desk) (s : State) : Prop := ∀ n, d.vals n = (find s.config n).map fun v => v.value.getD []

theorem same_put {d : Desk} {s : State} (h : Same d s) (f : Var → Var) (n : Bytes) (v : Bytes)
    (hv : (f ((find s.config n).getD {})).value.getD [] = v) (t : State) (ht : t.config = put f n s.config) : Same (d.set n (some v)) t := by
  intro m
  rw [ht, find_put]
  unfold Desk.set
  dsimp only
  by_cases hm : m = n
  · rw [if_pos hm, if_pos hm, Option.map_some, hv]
  · rw [if_neg hm, if_neg hm]; exact h m

theorem same_mutate {d : Desk} {s : State} (h : Same d s) (n out : Bytes) :
    Same (d.set n (some (meant out))) (mutateVariable s n out) :=
  same_put h (fun v => { v with lastunix := some s.unix, value := some (trimmed out) }) n _ rfl _ rfl

theorem mem_names {c : List (Bytes × Var)} {n : Bytes} : n ∈ c.map (·.1) ↔ ∃ v, (n, v) ∈ c := by
  rw [List.mem_map]
  constructor
  · rintro ⟨e, he, rfl⟩; exact ⟨e.2, he⟩
  · rintro ⟨v, hv⟩; exact ⟨_, hv, rfl⟩

theorem agree_runs {s : State} (h : Agree s) (hp : s.page ≠ none) (r g : List Bytes) (c : List (Bytes × Bytes)) :
    Agree { s with runs := r, gets := g, collect := c } :=
  ⟨h.good, h.nodup, h.size, fun hh => absurd hh hp, h.page⟩

theorem page_mutate {s : State} (n out : Bytes) : (mutateVariable s n out).page = none ↔ s.page = none := by
  show s.page.map _ = none ↔ _
  rw [Option.map_eq_none_iff]

theorem names_mutate {s : State} {n : Bytes} (hn : n ∈ s.config.map (·.1)) (out : Bytes) :
    (mutateVariable s n out).config.map (·.1) = s.config.map (·.1) := by
  show (put _ n s.config).map (·.1) = _
  rw [names_put, if_pos hn]

/-- All outputs are looked at. -/
theorem collect_fold (l : List (Bytes × Bytes)) : ∀ (s : State) (d : Desk), Agree s → Same d s → (∀ e ∈ l, e.1 ∈ s.runs) →
    (l.map (·.1)).Nodup → (∀ e ∈ l, e.1 ∈ s.config.map (·.1)) →
    Agree (l.foldl collectOne s) ∧ Same (l.foldl (fun d e => d.set e.1 (some (meant e.2))) d) (l.foldl collectOne s) ∧
      ((l.foldl collectOne s).page = none ↔ s.page = none) := by
  induction l with
  | nil => exact fun s d h h' _ _ _ => ⟨h, h', Iff.rfl⟩
  | cons e l ih =>
    intro s d h h' hr hd hc
    rw [List.map_cons, List.nodup_cons] at hd
    have he : e.1 ∈ s.runs := hr e (by simp)
    have hec : e.1 ∈ s.config.map (·.1) := hc e (by simp)
    have hpn : s.page ≠ none := fun hp => by
      have := (h.none_ hp).2.2.1
      rw [this] at he; cases he
    have hm := agree_mutate h hpn hec e.2
    have hone : collectOne s e = { mutateVariable s e.1 e.2 with runs := s.runs.filter (· ≠ e.1) } := by
      unfold collectOne; rw [if_pos he]
    have hA : Agree (collectOne s e) := by
      rw [hone]
      exact agree_runs hm (fun hh => hpn ((page_mutate _ _).mp hh)) _ _ _
    have hS : Same (d.set e.1 (some (meant e.2))) (collectOne s e) := by
      rw [hone]; exact same_mutate h' e.1 e.2
    have hcfg : (collectOne s e).config.map (·.1) = s.config.map (·.1) := by rw [hone]; exact names_mutate hec e.2
    have hruns : (collectOne s e).runs = s.runs.filter (· ≠ e.1) := by rw [hone]
    have hpg : (collectOne s e).page = none ↔ s.page = none := by rw [hone]; exact page_mutate _ _
    have hrest : ∀ x ∈ l, x.1 ∈ (collectOne s e).runs := by
      intro x hx
      rw [hruns, List.mem_filter]
      refine ⟨hr x (by simp [hx]), ?_⟩
      have : x.1 ≠ e.1 := fun hh => hd.1 (by rw [← hh]; exact List.mem_map_of_mem hx)
      simpa using this
    obtain ⟨i1, i2, i3⟩ := ih (collectOne s e) _ hA hS hrest hd.2 (by rw [hcfg]; exact fun x hx => hc x (by simp [hx]))
    exact ⟨i1, i2, i3.trans hpg⟩

theorem goodName_take {n : Bytes} (h : 0 ∉ n) : GoodName (n.take 31) :=
  ⟨by rw [List.length_take]; omega, fun hh => h (List.mem_of_mem_take hh)⟩

theorem length_put (f : Var → Var) (n : Bytes) (c : List (Bytes × Var)) : (put f n c).length ≤ c.length + 1 := by
  have := congrArg List.length (names_put f n c)
  rw [List.length_map] at this
  split at this
  · rw [List.length_map] at this; omega
  · simp only [List.length_append, List.length_map, List.length_cons, List.length_nil] at this; omega

theorem nodup_names_put {c : List (Bytes × Var)} (h : (c.map (·.1)).Nodup) (f : Var → Var) (n : Bytes) : ((put f n c).map (·.1)).Nodup := by
  rw [names_put]
  split
  · exact h
  · rename_i hn
    rw [List.nodup_append]
    refine ⟨h, by simp, ?_⟩
    intro a ha b hb
    rw [List.mem_singleton.mp hb]
    rintro rfl; exact hn ha

theorem visit_page (now : Nat) (l : Loop) (r : Rec) : (∀ n ∈ l.runs, n ∈ (visit now l r).runs) := by
  intro n hn
  unfold visit lower
  split
  · exact hn
  split
  · split
    · split
      · split <;> exact hn
      · exact hn
    · split
      · split <;> exact hn
      · exact List.mem_append.mpr (.inl hn)
  · split <;> exact hn

/-- One event. -/
theorem step_all {s : State} {d : Desk} (h : Agree s) (h' : Same d s) (hc : Coll s) (hp : d.pend = s.collect) {o : Op} (hu : Usual s o) :
    Agree (step s o) ∧ Same (after d o) (step s o) ∧ Coll (step s o) ∧ (after d o).pend = (step s o).collect := by
  cases o with
  | clock b u => exact ⟨⟨h.good, h.nodup, h.size, h.none_, h.page⟩, h', hc, hp⟩
  | refused n => exact absurd hu id
  | failed n =>
    refine ⟨⟨h.good, h.nodup, h.size, fun hh => ?_, h.page⟩, h', hc, hp⟩
    obtain ⟨a, b, c, e⟩ := h.none_ hh
    refine ⟨a, b, c, ?_⟩
    show s.gets.filter _ = []
    rw [e]; rfl
  | restart =>
    refine ⟨⟨h.good, h.nodup, Nat.le_refl _, fun _ => ⟨hu, rfl, rfl, rfl⟩, fun p hh => (by cases hh)⟩, h',
      ⟨fun e he => (by cases he), List.nodup_nil⟩, rfl⟩
  | finish n out =>
    refine ⟨⟨h.good, h.nodup, h.size, h.none_, h.page⟩, h', ⟨?_, ?_⟩, ?_⟩
    · intro e he
      rcases List.mem_append.mp he with he | he
      · exact hc.1 e he
      · rw [List.mem_singleton.mp he]; exact hu.1
    · show ((s.collect ++ [(n, out)]).map (·.1)).Nodup
      rw [List.map_append, List.nodup_append]
      refine ⟨hc.2, by simp, ?_⟩
      intro a ha b hb
      obtain ⟨e, he, rfl⟩ := List.mem_map.mp ha
      have : b = n := by simpa using hb
      rw [this]
      exact hu.2 e he
    · show d.pend ++ _ = s.collect ++ _
      rw [hp]
  | got n data =>
    have hn := mem_names.mpr hu.2
    have hpn : s.page ≠ none := fun hpg => by
      have := (h.none_ hpg).2.2.2
      have h1 := hu.1
      rw [this] at h1; cases h1
    have hs : step s (.got n data) = { mutateVariable s n data with gets := s.gets.filter (· ≠ n) } := by
      show (if n ∈ s.gets then _ else s) = _
      rw [if_pos hu.1]
    rw [hs]
    refine ⟨agree_runs (agree_mutate h hpn hn data) (fun hh => hpn ((page_mutate _ _).mp hh)) _ _ _, same_mutate h' n data, hc, hp⟩
  | add n q =>
    have hA : Agree (writeToShm { s with config := put q.apply (n.take 31) s.config }) := by
      refine agree_write ?_ (nodup_names_put h.nodup _ _) h.size ?_
      · intro e he
        have : e.1 ∈ (put q.apply (n.take 31) s.config).map (·.1) := List.mem_map_of_mem he
        rw [names_put] at this
        split at this
        · obtain ⟨x, hx, hxe⟩ := List.mem_map.mp this
          rw [← hxe]; exact h.good x hx
        · rcases List.mem_append.mp this with hx | hx
          · obtain ⟨x, hx, hxe⟩ := List.mem_map.mp hx
            rw [← hxe]; exact h.good x hx
          · rw [List.mem_singleton.mp hx]; exact goodName_take hu
      · intro hpg
        have := (h.none_ hpg).1
        have := length_put q.apply (n.take 31) s.config
        show (put q.apply (n.take 31) s.config).length ≤ 95
        omega
    refine ⟨hA, ?_, hc, hp⟩
    refine same_put h' q.apply (n.take 31) _ ?_ _ rfl
    rw [h' (n.take 31)]
    unfold Req.apply
    cases hf : find s.config (n.take 31) with
    | none => cases hq : q.value <;> rfl
    | some v => cases hq : q.value <;> rfl
  | remove n =>
    show Agree (removeVariable s n) ∧ Same (d.set n none) (removeVariable s n) ∧ Coll (removeVariable s n) ∧ _ = (removeVariable s n).collect
    unfold removeVariable
    split
    next hf =>
      refine ⟨agree_write (fun e he => h.good e (List.mem_filter.mp he).1) ?_ h.size ?_, ?_, hc, hp⟩
      · exact List.Nodup.sublist (List.Sublist.map _ List.filter_sublist) h.nodup
      · intro hpg
        have := (h.none_ hpg).1
        have h2 : (s.config.filter (·.1 ≠ n)).length ≤ s.config.length := List.length_filter_le _ _
        show (s.config.filter (·.1 ≠ n)).length ≤ 95
        omega
      · intro m
        show (if m = n then none else d.vals m) = (find (s.config.filter (·.1 ≠ n)) m).map _
        rw [find_filter]
        by_cases hm : m = n
        · rw [if_pos hm, if_pos hm]; rfl
        · rw [if_neg hm, if_neg hm]; exact h' m
    next hf =>
      refine ⟨h, ?_, hc, hp⟩
      intro m
      show (if m = n then none else d.vals m) = _
      by_cases hm : m = n
      · rw [if_pos hm, hm]
        cases hfn : find s.config n with
        | none => rfl
        | some v => rw [hfn] at hf; exact absurd rfl hf
      · rw [if_neg hm]; exact h' m
  | check =>
    obtain ⟨i1, i2, i3⟩ := collect_fold s.collect s d h h' hc.1 hc.2 (fun e he => mem_names.mpr (hu e he))
    have hfin : ∀ (t : State), Agree t → (t.page = none → t.runs = [] ∧ t.gets = []) → Agree (flush t) := by
      intro t ht _
      unfold flush
      split
      · exact agree_write ht.good ht.nodup ht.size (fun hh => by have := (ht.none_ hh).1; omega)
      · exact ht
    have hcfg : ∀ t : State, (flush t).config = t.config := by
      intro t; unfold flush; split <;> rfl
    have hcl : ∀ t : State, (flush t).collect = t.collect := by
      intro t; unfold flush; split <;> rfl
    refine ⟨?_, ?_, ?_, ?_⟩
    · by_cases hpg : s.page = none
      · obtain ⟨a, b, c, e⟩ := h.none_ hpg
        have hnil : s.collect = [] := by
          cases hcc : s.collect with
          | nil => rfl
          | cons x l =>
            have := hc.1 x (by rw [hcc]; simp)
            rw [c] at this; cases this
        have hca : collectAll s = s := by
          unfold collectAll
          rw [hnil]
          show { s with collect := [] } = s
          rw [← hnil]
        have hl : loopOf s = ⟨s.runs, s.gets, s.boot + 10000, []⟩ := by unfold loopOf; rw [hpg]; rfl
        show Agree (flush _)
        rw [hca, hl]
        exact hfin s h (fun _ => ⟨c, e⟩)
      · show Agree (flush _)
        refine hfin _ ?_ ?_
        · unfold collectAll
          exact agree_runs i1 (fun hh => hpg (i3.mp hh)) _ _ _
        · intro hh
          exact absurd (i3.mp hh) hpg
    · intro n
      have hd : (after d .check).vals = (s.collect.foldl (fun d e => d.set e.1 (some (meant e.2))) d).vals := by rw [← hp]; rfl
      rw [hd]
      show _ = (find (flush _).config n).map _
      rw [hcfg]
      exact i2 n
    · refine ⟨fun e he => ?_, ?_⟩
      · have : e ∈ (flush _).collect := he
        rw [hcl] at this
        cases this
      · show ((flush _).collect.map (·.1)).Nodup
        rw [hcl]
        exact List.nodup_nil
    · show [] = (flush _).collect
      rw [hcl]
      rfl

end Verif.Vars
