import Verif.Vars.Values

/-!
# C102: custom variables
-/
namespace Verif.Vars
open Verif Verif.Text Spec

theorem run_all : ∀ (ops : List Op) (s : State) (d : Desk), Agree s → Same d s → Coll s → d.pend = s.collect → AllUsual s ops →
    Agree (ops.foldl step s) ∧ Same (ops.foldl after d) (ops.foldl step s) ∧ Coll (ops.foldl step s) ∧
      (ops.foldl after d).pend = (ops.foldl step s).collect
  | [], _, _, h1, h2, h3, h4, _ => ⟨h1, h2, h3, h4⟩
  | o :: ops, s, d, h1, h2, h3, h4, hu => by
    obtain ⟨a, b, c, e⟩ := step_all h1 h2 h3 h4 hu.1
    exact run_all ops (step s o) (after d o) a b c e hu.2

/-- A controller that was just started without variables. -/
def fresh (boot unix : Nat) : State := { boot := boot, unix := unix }

theorem agree_fresh (b u : Nat) : Agree (fresh b u) ∧ Same {} (fresh b u) ∧ Coll (fresh b u) :=
  ⟨⟨fun e he => (by cases he), List.nodup_nil, Nat.le_refl _, fun _ => ⟨(by show 0 < 95; decide), rfl, rfl, rfl⟩, fun p hp => (by cases hp)⟩,
    fun n => rfl, ⟨fun e he => (by cases he), List.nodup_nil⟩⟩

theorem run_fresh {b u : Nat} {ops : List Op} (h : AllUsual (fresh b u) ops) :
    Agree (run (fresh b u) ops) ∧ Same (desk ops) (run (fresh b u) ops) ∧ Coll (run (fresh b u) ops) ∧
      (desk ops).pend = (run (fresh b u) ops).collect :=
  run_all ops (fresh b u) {} (agree_fresh b u).1 (agree_fresh b u).2.1 (agree_fresh b u).2.2 rfl h

theorem found_of {s : State} {d : Desk} (h : Agree s) (hs : Same d s) {p : Page} (hp : s.page = some p) (n : Bytes) :
    found p n = ((d.vals n).map shown).toList := by
  rw [hs n]
  have hsh := (h.page p hp).2.2
  have hf : found p n = ((p.all.map shape).filter (·.name = n)).map (·.lastVal) := by
    unfold found
    rw [List.filter_map, List.map_map]
    rfl
  rw [hf, hsh]
  clear hf hsh
  have hg := h.good
  have hn := h.nodup
  revert hg hn
  generalize s.config = c
  intro hg hn
  induction c with
  | nil => rfl
  | cons e c ih =>
    rw [List.map_cons, List.nodup_cons] at hn
    have hname : (shape (recOf 0 0 e)).name = e.1 := cstr_name (hg e (by simp))
    rw [List.map_cons]
    by_cases he : e.1 = n
    · rw [List.filter_cons_of_pos (by simp [hname, he])]
      have hrest : (c.map fun e => shape (recOf 0 0 e)).filter (·.name = n) = [] := by
        rw [List.filter_eq_nil_iff]
        intro r hr
        obtain ⟨x, hx, rfl⟩ := List.mem_map.mp hr
        have : (shape (recOf 0 0 x)).name = x.1 := cstr_name (hg x (by simp [hx]))
        rw [this]
        simp only [decide_eq_true_eq]
        intro hh
        exact hn.1 (by rw [he, ← hh]; exact List.mem_map_of_mem hx)
      rw [hrest]
      unfold find
      simp [he]
      rfl
    · rw [List.filter_cons_of_neg (by simp [hname, he]), ih (fun x hx => hg x (by simp [hx])) hn.2]
      unfold find
      simp [he]

/-- C102 (what is missing: see `C102_zombie_fails`, `C102_refused_fails` and `C102_wrap_fails` for unusual events): in every usual history of requests, programs, downloads and restarts, the
list of variables has exactly the variables that were added and not removed, each once, with the value last set by a request or by its target; every process finds in shared
memory exactly these values, cut to 127 bytes; and the values are there after each check and each request to add a variable. -/
theorem C102_values_partial (b u : Nat) (ops : List Op) (h : AllUsual (fresh b u) ops) :
    ((run (fresh b u) ops).config.map (·.1)).Nodup ∧
    (∀ n, ((desk ops).vals n = none ↔ ∀ v, (n, v) ∉ (run (fresh b u) ops).config)) ∧
    (∀ n v, (n, v) ∈ (run (fresh b u) ops).config → (desk ops).vals n = some (v.value.getD [])) ∧
    (∀ p, (run (fresh b u) ops).page = some p → ∀ n, found p n = (((desk ops).vals n).map shown).toList) ∧
    ∀ o, ops.getLast? = some o → (o = .check ∨ ∃ n q, o = .add n q) → (run (fresh b u) ops).page ≠ none := by
  obtain ⟨hA, hS, hC, hP⟩ := run_fresh h
  refine ⟨hA.nodup, ?_, ?_, fun p hp n => found_of hA hS hp n, ?_⟩
  · intro n
    rw [hS n, Option.map_eq_none_iff]
    have := @find_isSome (run (fresh b u) ops).config n
    rw [mem_names] at this
    constructor
    · intro hf v hv
      have := this.mpr ⟨v, hv⟩
      rw [hf] at this; cases this
    · intro hv
      cases hf : find (run (fresh b u) ops).config n with
      | none => rfl
      | some x =>
        obtain ⟨v, hv'⟩ := this.mp (by rw [hf]; rfl)
        exact absurd hv' (hv v)
  · intro n v hv
    rw [hS n]
    have : find (run (fresh b u) ops).config n = some v := by
      have hn := hA.nodup
      revert hn hv
      generalize (run (fresh b u) ops).config = c
      intro hv hn
      induction c with
      | nil => cases hv
      | cons e c ih =>
        rw [List.map_cons, List.nodup_cons] at hn
        rcases List.mem_cons.mp hv with rfl | hv
        · unfold find; simp
        · have : ¬ e.1 = n := fun hh => hn.1 (by rw [hh]; exact mem_names.mpr ⟨v, hv⟩)
          rw [← ih hv hn.2]
          unfold find; simp [this]
    rw [this]; rfl
  · intro o ho hk hp
    obtain ⟨pre, hpre⟩ := List.getLast?_eq_some_iff.mp ho
    have hstale := (hA.none_ hp).2.1
    rw [hpre] at hstale
    unfold run at hstale
    rw [List.foldl_append] at hstale
    rcases hk with rfl | ⟨n, q, rfl⟩
    · have : ∀ t : State, (flush t).stale = false := by
        intro t; unfold flush; split
        · rfl
        · rename_i hh; simpa using hh
      change (flush _).stale = true at hstale
      rw [this] at hstale; cases hstale
    · cases hstale

/-! ## When targets run -/

theorem lower_starts (l : Loop) (r : Rec) (a : Nat) : (lower l r a).starts = l.starts ∧ (lower l r a).runs = l.runs ∧ (lower l r a).gets = l.gets := by
  unfold lower; split <;> exact ⟨rfl, rfl, rfl⟩

/-- What is started for one record. -/
theorem visit_starts (now : Nat) (l : Loop) (r : Rec) :
    ((visit now l r).starts = l.starts ∧ (visit now l r).runs = l.runs ∧ (visit now l r).gets = l.gets ∧
      (r.name = [] ∨ r.target = [] ∨ due now r = false ∨ r.name ∈ if isUrl r.target then l.gets else l.runs)) ∨
    ((visit now l r).starts = l.starts ++ [⟨r.name, r.target, waitOf r⟩] ∧ due now r = true ∧ r.name ≠ [] ∧ r.target ≠ [] ∧
      ((isUrl r.target = true ∧ r.name ∉ l.gets ∧ (visit now l r).gets = l.gets ++ [r.name] ∧ (visit now l r).runs = l.runs) ∨
        (isUrl r.target = false ∧ r.name ∉ l.runs ∧ (visit now l r).runs = l.runs ++ [r.name] ∧ (visit now l r).gets = l.gets))) := by
  unfold visit
  split
  next h => left; exact ⟨rfl, rfl, rfl, by rcases h with h | h <;> simp [h]⟩
  next h =>
    have h1 : r.name ≠ [] := fun hh => h (.inl hh)
    have h2 : r.target ≠ [] := fun hh => h (.inr hh)
    split
    next hd =>
      split
      next hu =>
        split
        next hm => left; obtain ⟨a, b, c⟩ := lower_starts l r (now + r.interval); exact ⟨a, b, c, by simp [hm]⟩
        next hm => right; exact ⟨rfl, hd, h1, h2, .inl ⟨hu, hm, rfl, rfl⟩⟩
      next hu =>
        have hu' : isUrl r.target = false := by simpa using hu
        split
        next hm => left; obtain ⟨a, b, c⟩ := lower_starts l r (now + r.interval); exact ⟨a, b, c, by simp [hm]⟩
        next hm => right; exact ⟨rfl, hd, h1, h2, .inr ⟨hu', hm, rfl, rfl⟩⟩
    next hd => left; obtain ⟨a, b, c⟩ := lower_starts l r (r.lastRun + r.interval); exact ⟨a, b, c, by simp [Bool.eq_false_iff.mpr hd]⟩

/-- What is started for some records. -/
theorem fold_starts (now : Nat) : ∀ (rs : List Rec) (l : Loop), ∃ new, (rs.foldl (visit now) l).starts = l.starts ++ new ∧
    (∀ st ∈ new, ∃ r ∈ rs, due now r = true ∧ st = ⟨r.name, r.target, waitOf r⟩ ∧ r.name ≠ [] ∧ r.target ≠ [] ∧
      r.name ∉ if isUrl r.target then l.gets else l.runs) ∧
    (∀ r ∈ rs, due now r = true → r.name ≠ [] → r.target ≠ [] → r.name ∉ (if isUrl r.target then l.gets else l.runs) →
      ∃ st ∈ new, st.name = r.name ∧ isUrl st.target = isUrl r.target) ∧
    new.Pairwise (fun a b => a.name = b.name → isUrl a.target ≠ isUrl b.target) ∧
    (∀ m, m ∈ l.runs → m ∈ (rs.foldl (visit now) l).runs) ∧ (∀ m, m ∈ l.gets → m ∈ (rs.foldl (visit now) l).gets)
  | [], l => ⟨[], by simp, by simp, by simp, List.Pairwise.nil, fun _ h => h, fun _ h => h⟩
  | r :: rs, l => by
    obtain ⟨new, h1, h2, h3, h4, h5, h6⟩ := fold_starts now rs (visit now l r)
    rw [List.foldl_cons]
    rcases visit_starts now l r with ⟨e1, e2, e3, hw⟩ | ⟨e1, hd, hn, ht, hk⟩
    · refine ⟨new, by rw [h1, e1], ?_, ?_, h4, by rw [e2] at h5; exact h5, by rw [e3] at h6; exact h6⟩
      · intro st hst
        obtain ⟨x, hx, hrest⟩ := h2 st hst
        rw [e2, e3] at hrest
        exact ⟨x, by simp [hx], hrest⟩
      · intro x hx hd' hn' ht' hm'
        rcases List.mem_cons.mp hx with rfl | hx
        · rcases hw with hw | hw | hw | hw
          · exact absurd hw hn'
          · exact absurd hw ht'
          · rw [hw] at hd'; cases hd'
          · exact absurd hw hm'
        · exact h3 x hx hd' hn' ht' (by rw [e2, e3]; exact hm')
    · have hsub : ∀ x : Rec, x.name ∉ (if isUrl x.target then (visit now l r).gets else (visit now l r).runs) →
          (x.name ∉ if isUrl x.target then l.gets else l.runs) ∧ (x.name = r.name → isUrl x.target ≠ isUrl r.target) := by
        intro x hx
        rcases hk with ⟨hu, _, hg, hr⟩ | ⟨hu, _, hr, hg⟩
        · rw [hg, hr] at hx
          cases hxu : isUrl x.target with
          | true =>
            simp only [hxu, if_true, List.mem_append, List.mem_singleton, not_or] at hx ⊢
            exact ⟨hx.1, fun hh => absurd hh hx.2⟩
          | false =>
            simp only [hxu, Bool.false_eq_true, if_false] at hx ⊢
            exact ⟨hx, fun _ => by rw [hu]; simp⟩
        · rw [hg, hr] at hx
          cases hxu : isUrl x.target with
          | false =>
            simp only [hxu, Bool.false_eq_true, if_false, List.mem_append, List.mem_singleton, not_or] at hx ⊢
            exact ⟨hx.1, fun hh => absurd hh hx.2⟩
          | true =>
            simp only [hxu, if_true] at hx ⊢
            exact ⟨hx, fun _ => by rw [hu]; simp⟩
      have hrn : r.name ∉ if isUrl r.target then l.gets else l.runs := by
        rcases hk with ⟨hu, hm, _⟩ | ⟨hu, hm, _⟩
        · rw [hu]; exact hm
        · rw [hu]; exact hm
      refine ⟨⟨r.name, r.target, waitOf r⟩ :: new, by rw [h1, e1, List.append_assoc]; rfl, ?_, ?_, ?_, ?_, ?_⟩
      · intro st hst
        rcases List.mem_cons.mp hst with rfl | hst
        · exact ⟨r, by simp, hd, rfl, hn, ht, hrn⟩
        · obtain ⟨x, hx, a1, a2, a3, a4, a5⟩ := h2 st hst
          exact ⟨x, by simp [hx], a1, a2, a3, a4, (hsub x a5).1⟩
      · intro x hx hd' hn' ht' hm'
        rcases List.mem_cons.mp hx with rfl | hx
        · exact ⟨⟨x.name, x.target, waitOf x⟩, List.mem_cons_self, rfl, rfl⟩
        · by_cases hsame : x.name = r.name ∧ isUrl x.target = isUrl r.target
          · exact ⟨⟨r.name, r.target, waitOf r⟩, List.mem_cons_self, hsame.1.symm, hsame.2.symm⟩
          · have hx' : x.name ∉ (if isUrl x.target then (visit now l r).gets else (visit now l r).runs) := by
              rcases hk with ⟨hu, _, hg, hr⟩ | ⟨hu, _, hr, hg⟩
              · rw [hg, hr]
                cases hxu : isUrl x.target with
                | true =>
                  simp only [hxu, if_true, List.mem_append, List.mem_singleton, not_or] at hm' ⊢
                  exact ⟨hm', fun hh => hsame ⟨hh, by rw [hxu, hu]⟩⟩
                | false => simpa [hxu] using hm'
              · rw [hg, hr]
                cases hxu : isUrl x.target with
                | false =>
                  simp only [hxu, Bool.false_eq_true, if_false, List.mem_append, List.mem_singleton, not_or] at hm' ⊢
                  exact ⟨hm', fun hh => hsame ⟨hh, by rw [hxu, hu]⟩⟩
                | true => simpa [hxu] using hm'
            obtain ⟨st, hst, a⟩ := h3 x hx hd' hn' ht' hx'
            exact ⟨st, by simp [hst], a⟩
      · rw [List.pairwise_cons]
        refine ⟨?_, h4⟩
        intro st hst hh
        obtain ⟨x, hx, _, rfl, _, _, a5⟩ := h2 st hst
        exact Ne.symm ((hsub x a5).2 hh.symm)
      · intro m hm
        apply h5
        rcases hk with ⟨_, _, hg, hr⟩ | ⟨_, _, hr, hg⟩ <;> rw [hr] <;> simp [hm]
      · intro m hm
        apply h6
        rcases hk with ⟨_, _, hg, hr⟩ | ⟨_, _, hr, hg⟩ <;> rw [hg] <;> simp [hm]

/-- **C102.** A request to add a variable sets exactly the members it has, and leaves the others and all other variables as they are. -/
theorem C102_added (s : State) (n : Bytes) (q : Req) (m : Bytes) :
    find (step s (.add n q)).config m =
      if m = n.take 31 then
        some { (find s.config m).getD {} with
          target := if q.target.isSome then q.target else ((find s.config m).getD {}).target,
          interval := if q.interval.isSome then q.interval else ((find s.config m).getD {}).interval,
          value := if q.value.isSome then q.value else ((find s.config m).getD {}).value,
          waitTime := if q.waitTime.isSome then q.waitTime else ((find s.config m).getD {}).waitTime }
      else find s.config m := by
  have h0 : ∀ s : State, (writeToShm s).config = s.config := by
    intro s
    unfold writeToShm
    first
      | rfl
      | (split <;> rfl)
  show find (addVariable s n q).config m = _
  unfold addVariable
  rw [h0]
  dsimp only
  rw [find_put]
  by_cases h : m = n.take 31
  · rw [if_pos h, if_pos h, h]
    unfold Req.apply
    congr 2 <;> first
      | (cases q.target <;> rfl)
      | (cases q.interval <;> rfl)
      | (cases q.value <;> rfl)
      | (cases q.waitTime <;> rfl)
  · rw [if_neg h, if_neg h]

/-- A target is changed, the interval stays. -/
example : find (step (step (fresh 5 0) (.add [0x61] { target := some [1], interval := some 5000 })) (.add [0x61] { target := some [2] })).config [0x61] =
    some { target := some [2], interval := some 5000 } := by decide +kernel

/-- **C102.** A target is fetched when it starts with `http://` or `https://`, and executed otherwise. -/
theorem C102_fetched (target : Bytes) : isUrl target = true ↔ (∃ r, target = "http://".toUTF8.toList ++ r) ∨ ∃ r, target = "https://".toUTF8.toList ++ r := by
  have e1 : "http://".toUTF8.toList = [0x68, 0x74, 0x74, 0x70, 0x3a, 0x2f, 0x2f] := by decide +kernel
  have e2 : "https://".toUTF8.toList = [0x68, 0x74, 0x74, 0x70, 0x73, 0x3a, 0x2f, 0x2f] := by decide +kernel
  rw [e1, e2]
  unfold isUrl
  rw [decide_eq_true_eq]
  constructor
  · rintro (h | h)
    · exact .inl ⟨target.drop 7, by rw [← h, List.take_append_drop]⟩
    · exact .inr ⟨target.drop 8, by rw [← h, List.take_append_drop]⟩
  · rintro (⟨r, h⟩ | ⟨r, h⟩)
    · exact .inl (by rw [h]; rfl)
    · exact .inr (by rw [h]; rfl)

example : isUrl ("https://host/x".toUTF8.toList) = true ∧ isUrl ("/bin/date".toUTF8.toList) = false := by decide +kernel

end Verif.Vars
