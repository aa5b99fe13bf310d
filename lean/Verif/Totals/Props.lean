import Verif.Totals.Lemmas

/-! # Theorems about the totals of the server -/
namespace Verif.Totals

open Verif Spec

/-- The entry of a session with these first and last reports. -/
def entryOf (p q : Report) : Entry := { time := q.time, first := p.now, down := q.down, up := q.up, stream := q.stream }

/-- A session is kept as the history says. -/
def Match (x : Sess) (cur op lat : Option Report) : Prop :=
  match cur, op with
  | some q, some p => 0 < p.now ∧ lat = some q ∧ ∃ rest, x.log = (q.now, entryOf p q) :: rest
  | none, none => x.last = {} ∧ (match lat with | none => x.stop = 0 | some q => x.stop ≤ q.now + 1)
  | _, _ => False

structure Inv (evs : List Ev) (s : State) : Prop where
  nodup : (s.sessions.map Prod.fst).Nodup
  boot : s.boot = clock evs
  first : s.first = true ↔ .sweep ∉ evs
  sess : ∀ sid, Match (find s.sessions sid) (current sid evs) (opening sid evs) (latest sid evs)
  free : ∀ sid f, (find s.sessions sid).free = some f → ∃ r, .rep r ∈ evs ∧ r.sid = sid ∧ r.free = f

theorem current_mem (sid : Bytes) (evs : List Ev) : ∀ q, current sid evs = some q → .rep q ∈ evs ∧ q.sid = sid := by
  induction evs using snoc_induction with
  | h0 => intro q h; cases h
  | hs evs e ih =>
    intro q h
    rw [current_snoc] at h
    have lift : ∀ {q}, (.rep q ∈ evs ∧ q.sid = sid) → .rep q ∈ evs ++ [e] ∧ q.sid = sid := fun h => ⟨List.mem_append_left _ h.1, h.2⟩
    cases e with
    | rep r =>
      simp only at h
      split at h
      next hr => cases h; exact ⟨by simp, hr⟩
      · exact lift (ih q h)
    | fin i =>
      simp only at h
      split at h
      · cases h
      · exact lift (ih q h)
    | tick t => exact lift (ih q h)
    | sweep => exact lift (ih q h)

theorem match_last {x : Sess} {cur op lat : Option Report} (h : Match x cur op lat) :
    (x.last.down = worth Report.down cur ∧ x.last.up = worth Report.up cur) ∧ (x.last.first = 0 ↔ cur = none) ∧
    (∀ q, cur = some q → ∃ p, op = some p ∧ x.last = entryOf p q ∧ x.stop = q.now ∧ 0 < p.now ∧ lat = some q) := by
  unfold Match at h
  cases cur with
  | none =>
    cases op with
    | none =>
      rw [h.1]
      exact ⟨⟨rfl, rfl⟩, by simp, fun q hq => by cases hq⟩
    | some p => exact absurd h id
  | some q =>
    cases op with
    | none => exact absurd h id
    | some p =>
      obtain ⟨h1, h2, rest, h3⟩ := h
      have hl : x.last = entryOf p q := by simp [Sess.last, h3]
      rw [hl]
      refine ⟨⟨rfl, rfl⟩, ?_, fun q' hq => ?_⟩
      · simp only [entryOf]
        constructor
        · intro h; omega
        · intro h; cases h
      · cases hq
        exact ⟨p, rfl, rfl, by simp [Sess.stop, h3], h1, h2⟩

theorem expected_accepted {evs : List Ev} {s : State} {r : Report} (h : Inv evs s) (he : Expected evs (.rep r)) :
    ¬ r.now < (find s.sessions r.sid).stop ∧ cutoff s.boot ≤ r.now ∧ (3 ≤ s.boot ∧ s.boot - 3 ≤ r.now) := by
  obtain ⟨h0, h1, h2, h3, h4⟩ := he
  have hb := h.boot
  refine ⟨?_, by unfold cutoff; omega, by omega⟩
  have hm := h.sess r.sid
  cases hc : current r.sid evs with
  | some q =>
    obtain ⟨p, _, _, hs, _, hl⟩ := (match_last hm).2.2 q hc
    have := (h3 q (by rw [hl]; rfl)).1
    omega
  | none =>
    rw [hc] at hm
    unfold Match at hm
    cases ho : opening r.sid evs with
    | some p => rw [ho] at hm; exact absurd hm id
    | none =>
      rw [ho] at hm
      cases hl : latest r.sid evs with
      | none => rw [hl] at hm; have := hm.2; simp only at this; omega
      | some q =>
        rw [hl] at hm
        have h5 := hm.2
        have h6 := (h3 q (by rw [hl]; rfl)).2 hc
        simp only at h5
        omega

/-- What a report that is expected does, without the streams. -/
theorem report_effect {evs : List Ev} {s : State} {r : Report} (h : Inv evs s) (he : Expected evs (.rep r)) :
    ∃ rest, (step s (.rep r)).sessions = put s.sessions r.sid { free := some ((find s.sessions r.sid).free.getD r.free), log := (r.now, { time := r.time, first := if current r.sid evs = none then r.now else (find s.sessions r.sid).last.first, down := r.down, up := r.up, stream := r.stream }) :: rest } ∧
      (step s (.rep r)).boot = s.boot ∧ (step s (.rep r)).first = s.first ∧ (step s (.rep r)).access = s.access ∧
      (step s (.rep r)).count = (if current r.sid evs = none ∧ r.stream ≠ [] then bump s.count (kindOf r.sid) else s.count) ∧
      (step s (.rep r)).down = s.down + (if (find s.sessions r.sid).free.getD r.free = true then 0 else (r.down : Int) - worth Report.down (current r.sid evs)) ∧
      (step s (.rep r)).up = s.up + (if (find s.sessions r.sid).free.getD r.free = true then 0 else (r.up : Int) - worth Report.up (current r.sid evs)) ∧
      (step s (.rep r)).otherDown = s.otherDown + (if (find s.sessions r.sid).free.getD r.free = true then (r.down : Int) - worth Report.down (current r.sid evs) else 0) ∧
      (step s (.rep r)).otherUp = s.otherUp + (if (find s.sessions r.sid).free.getD r.free = true then (r.up : Int) - worth Report.up (current r.sid evs) else 0) := by
  obtain ⟨h1, h2, h3⟩ := expected_accepted h he
  obtain ⟨⟨m1, m2⟩, m3, m4⟩ := match_last (h.sess r.sid)
  obtain ⟨rest, hk⟩ := keep_head (r := r) (x := find s.sessions r.sid) h2
  refine ⟨rest, ?_⟩
  have hle : worth Report.down (current r.sid evs) ≤ r.down ∧ worth Report.up (current r.sid evs) ≤ r.up := by
    cases hc : current r.sid evs with
    | none => exact ⟨Nat.zero_le _, Nat.zero_le _⟩
    | some q => exact he.2.2.2.2 q (by rw [hc]; rfl)
  simp only [step, if_pos h3]
  unfold update
  dsimp only
  rw [if_neg h1, hk]
  generalize hx : find s.sessions r.sid = x at *
  generalize hE : ({ time := r.time, first := if x.last.first = 0 then r.now else x.last.first, down := r.down, up := r.up, stream := r.stream } : Entry) = E at *
  have e1 : E.down = r.down := by rw [← hE]
  have e2 : E.up = r.up := by rw [← hE]
  have e3 : E.stream = r.stream := by rw [← hE]
  have hlast : ({ x with log := (r.now, E) :: rest } : Sess).last = E := rfl
  rw [hlast]
  have hc := server_counts s r x (old := x.last) (new := E) (by omega) (by omega)
  have hr := server_rest s r x x.last E
  generalize server s r x x.last E = u at hc hr ⊢
  obtain ⟨u1, u2⟩ := u
  simp only at hc hr ⊢
  have hs := started_rest u1 (kindOf r.sid) x.last E
  generalize started u1 (kindOf r.sid) x.last E = v at hs ⊢
  have hf := stream_frame v (kindOf r.sid) u2 (if x.last.first = 0 then 0 else r.now - x.stop) x.last E
  generalize stream v (kindOf r.sid) u2 (if x.last.first = 0 then 0 else r.now - x.stop) x.last E = z at hf ⊢
  obtain ⟨f1, f2, f3, f4, f5, f6, f7, f8, f9⟩ := hf
  obtain ⟨s1, s2, s3, s4, s5, s6, s7, s8, s9⟩ := hs
  obtain ⟨r1, r2, r3, r4, r5⟩ := hr
  obtain ⟨c0, c1, c2, c3, c4⟩ := hc
  refine ⟨?_, ?_, ?_, ?_, ?_, ?_, ?_, ?_, ?_⟩
  · rw [f1, s1, r1, c0, ← hE]
    simp only [m3]
  · rw [f2, s2, r2]
  · rw [f3, s3, r3]
  · rw [f9, s8, r4]
  · rw [f8, s9, r5, e3]
    simp only [m3]
  · rw [f4, s4, c1, e1, m1]
  · rw [f5, s5, c2, e2, m2]
  · rw [f6, s6, c3, e1, m1]
  · rw [f7, s7, c4, e2, m2]

theorem inv_step {evs : List Ev} {s : State} (e : Ev) (h : Inv evs s) (he : Expected evs e) : Inv (evs ++ [e]) (step s e) := by
  have lift : ∀ {sid f}, (∃ r, .rep r ∈ evs ∧ r.sid = sid ∧ r.free = f) → ∃ r, .rep r ∈ evs ++ [e] ∧ r.sid = sid ∧ r.free = f :=
    fun ⟨r, h1, h2⟩ => ⟨r, List.mem_append_left _ h1, h2⟩
  cases e with
  | tick t =>
    refine ⟨h.nodup, by rw [clock_snoc]; rfl, ?_, ?_, fun sid f hf => lift (h.free sid f hf)⟩
    · rw [show (step s (.tick t)).first = s.first from rfl, h.first]
      simp
    · intro sid
      rw [current_snoc, opening_snoc, latest_snoc]
      exact h.sess sid
  | rep r =>
    obtain ⟨rest, e1, e2, e3, e4, e5, e6, e7, e8, e9⟩ := report_effect h he
    refine ⟨?_, ?_, ?_, ?_, ?_⟩
    · rw [e1]; exact nodup_put _ _ h.nodup
    · rw [e2, clock_snoc, h.boot]
    · rw [e3, h.first]; simp
    · intro sid
      rw [e1, find_put, current_snoc, opening_snoc, latest_snoc]
      simp only
      by_cases hs : sid = r.sid
      · subst hs
        rw [if_pos rfl, if_pos rfl, if_pos rfl, if_pos rfl]
        have hm := h.sess r.sid
        cases hc : current r.sid evs with
        | none =>
          have ho : opening r.sid evs = none := by
            cases ho : opening r.sid evs with
            | none => rfl
            | some p => rw [hc, ho] at hm; exact absurd hm id
          rw [ho]
          exact ⟨he.1, rfl, rest, rfl⟩
        | some q =>
          obtain ⟨p, hp, hl, _, hp0, _⟩ := (match_last hm).2.2 q hc
          rw [hp]
          refine ⟨hp0, rfl, rest, ?_⟩
          rw [hl]
          rfl
      · rw [if_neg hs, if_neg (Ne.symm hs), if_neg (Ne.symm hs), if_neg (Ne.symm hs)]
        exact h.sess sid
    · intro sid f
      rw [e1, find_put]
      by_cases hs : sid = r.sid
      · subst hs
        rw [if_pos rfl]
        intro hf
        cases hx : (find s.sessions r.sid).free with
        | none =>
          rw [hx] at hf
          exact ⟨r, by simp, rfl, by simpa using hf⟩
        | some g =>
          rw [hx] at hf
          have : g = f := by simpa using hf
          exact lift (h.free r.sid f (by rw [hx, this]))
      · rw [if_neg hs]
        exact fun hf => lift (h.free sid f hf)
  | fin i =>
    simp only [step]
    unfold finish
    dsimp only
    obtain ⟨_, m3, m4⟩ := match_last (h.sess i)
    by_cases hf0 : (find s.sessions i).last.first = 0
    · rw [if_pos hf0]
      have hc := m3.mp hf0
      have same : ∀ sid, find (put s.sessions i (find s.sessions i)) sid = find s.sessions sid := by
        intro sid
        rw [find_put]
        by_cases hs : sid = i
        · rw [if_pos hs, hs]
        · rw [if_neg hs]
      refine ⟨nodup_put _ _ h.nodup, by rw [clock_snoc]; exact h.boot, ?_, ?_, fun sid f hf => lift (h.free sid f (by rw [← same]; exact hf))⟩
      · show s.first = true ↔ _
        rw [h.first]; simp
      · intro sid
        show Match (find (put s.sessions i (find s.sessions i)) sid) _ _ _
        rw [same, current_snoc, opening_snoc, latest_snoc]
        simp only
        by_cases hs : i = sid
        · subst hs
          rw [if_pos rfl, if_pos rfl]
          have hm := h.sess i
          rw [hc] at hm
          cases ho : opening i evs with
          | none => rw [ho] at hm; exact hm
          | some p => rw [ho] at hm; exact absurd hm id
        · rw [if_neg hs, if_neg hs]
          exact h.sess sid
    · rw [if_neg hf0]
      obtain ⟨q, hq⟩ : ∃ q, current i evs = some q := by
        cases hc : current i evs with
        | none => exact absurd (m3.mpr hc) hf0
        | some q => exact ⟨q, rfl⟩
      obtain ⟨p, hp, hl, hst, hp0, hlat⟩ := m4 q hq
      refine ⟨nodup_put _ _ h.nodup, by rw [clock_snoc]; exact h.boot, ?_, ?_, ?_⟩
      · show s.first = true ↔ _
        rw [h.first]; simp
      · intro sid
        show Match (find (put s.sessions i _) sid) _ _ _
        rw [find_put, current_snoc, opening_snoc, latest_snoc]
        simp only
        by_cases hs : i = sid
        · subst hs
          rw [if_pos rfl, if_pos rfl, if_pos rfl, hlat]
          refine ⟨rfl, ?_⟩
          show (find s.sessions i).stop + 1 ≤ q.now + 1
          omega
        · rw [if_neg hs, if_neg hs, if_neg (fun h => hs h.symm)]
          exact h.sess sid
      · intro sid f hf
        have hf : (find (put s.sessions i { find s.sessions i with log := ((find s.sessions i).stop + 1, {}) :: (find s.sessions i).log }) sid).free = some f := hf
        rw [find_put] at hf
        by_cases hs : sid = i
        · rw [if_pos hs] at hf
          exact lift (h.free sid f (by rw [hs]; exact hf))
        · rw [if_neg hs] at hf
          exact lift (h.free sid f hf)
  | sweep =>
    obtain ⟨e1, e2, e3, _⟩ := sweep_sessions s
    have hsw : step s .sweep = sweep s := rfl
    rw [hsw]
    refine ⟨?_, ?_, ?_, ?_, ?_⟩
    · rw [e1]
      exact List.Nodup.sublist (List.Sublist.map _ List.filter_sublist) h.nodup
    · rw [e2, clock_snoc, h.boot]
    · rw [e3]; simp
    · intro sid
      rw [e1, current_snoc, opening_snoc, latest_snoc]
      simp only
      have hm := h.sess sid
      rcases find_filter (fun p : Bytes × Sess => decide (cutoff s.boot ≤ p.2.stop)) s.sessions h.nodup sid with hk | ⟨hk, hP⟩
      · rw [hk]; exact hm
      · rw [hk]
        have hP : (find s.sessions sid).stop < cutoff s.boot := by
          have hP : ¬ (cutoff s.boot ≤ (find s.sessions sid).stop) := by simpa using hP
          omega
        cases hc : current sid evs with
        | some q =>
          exfalso
          obtain ⟨p, _, _, hst, _, _⟩ := (match_last hm).2.2 q hc
          obtain ⟨q1, q2⟩ := current_mem sid evs q hc
          have := he (.rep q) q1
          simp only [q2] at this
          have := this hc
          rw [hst, h.boot] at hP
          unfold cutoff at hP
          omega
        | none =>
          rw [hc] at hm
          cases ho : opening sid evs with
          | some p => rw [ho] at hm; exact absurd hm id
          | none =>
            refine ⟨rfl, ?_⟩
            cases latest sid evs with
            | none => rfl
            | some q => exact Nat.zero_le _
    · intro sid f hf
      rw [e1] at hf
      rcases find_filter (fun p : Bytes × Sess => decide (cutoff s.boot ≤ p.2.stop)) s.sessions h.nodup sid with hk | ⟨hk, hP⟩
      · rw [hk] at hf
        exact lift (h.free sid f hf)
      · rw [hk] at hf; cases hf

theorem inv_init : Inv [] {} :=
  ⟨List.nodup_nil, rfl, by simp, fun sid => ⟨rfl, rfl⟩, fun sid f hf => by cases hf⟩

theorem inv_run (evs : List Ev) (h : Orderly evs) : Inv evs (run evs) := by
  induction evs using snoc_induction with
  | h0 => exact inv_init
  | hs evs e ih =>
    obtain ⟨h1, h2⟩ := orderly_snoc h
    rw [run_snoc]
    exact inv_step e (ih h1) h2

/-! ## The totals -/

theorem before_more (x : List Ev) : ∀ (l : List Ev), .sweep ∈ l → (l ++ x).takeWhile (· ≠ .sweep) = l.takeWhile (· ≠ .sweep)
  | [], h => by simp at h
  | e :: l, h => by
    by_cases he : e = .sweep
    · subst he; simp
    · have hm : .sweep ∈ l := by
        rcases List.mem_cons.mp h with h | h
        · exact absurd h.symm he
        · exact h
      have := before_more x l hm
      simp only [List.cons_append, List.takeWhile_cons, this]

theorem before_first : ∀ (l : List Ev), .sweep ∉ l → (l ++ [Ev.sweep]).takeWhile (· ≠ Ev.sweep) = l
  | [], h => by simp
  | e :: l, h => by
    have he : e ≠ .sweep := fun he => h (by rw [he]; exact List.mem_cons_self)
    have := before_first l (fun hm => h (List.mem_cons_of_mem _ hm))
    rw [List.cons_append, List.takeWhile_cons, this]
    simp [he]

theorem known_snoc (w : Report → Nat) (evs : List Ev) (e : Ev) (he : e ≠ .sweep ∨ .sweep ∈ evs) : known w (evs ++ [e]) = known w evs := by
  unfold known
  by_cases h : .sweep ∈ evs
  · rw [if_pos (List.mem_append_left _ h), if_pos h, before_more _ _ h]
  · have hne : e ≠ .sweep := he.resolve_right h
    rw [if_neg h, if_neg]
    simp only [List.mem_append, List.mem_singleton]
    rintro (h1 | h1)
    · exact h h1
    · exact hne h1.symm

theorem known_first (w : Report → Nat) (evs : List Ev) (h : .sweep ∉ evs) : known w (evs ++ [.sweep]) = final w evs := by
  unfold known
  rw [if_pos (by simp), before_first _ h]

theorem known_none (w : Report → Nat) (evs : List Ev) (h : .sweep ∉ evs) : known w evs = 0 := if_neg h

/-- C100: the totals of bytes of the server are the sums of what sessions reported last, over all sessions since the first pass, if sessions report
in time, do not count backwards and do not fall silent for ten minutes.

Partial: for other histories see `C100_late_fails`, `C100_double_fails` and `C100_negative_fails`. -/
theorem C100_totals_partial (evs : List Ev) (h : Orderly evs) (hs : Settled evs) :
    (run evs).down = final (fun r => if r.free then 0 else r.down) evs - known (fun r => if r.free then 0 else r.down) evs ∧
    (run evs).up = final (fun r => if r.free then 0 else r.up) evs - known (fun r => if r.free then 0 else r.up) evs ∧
    (run evs).otherDown = final (fun r => if r.free then r.down else 0) evs - known (fun r => if r.free then r.down else 0) evs ∧
    (run evs).otherUp = final (fun r => if r.free then r.up else 0) evs - known (fun r => if r.free then r.up else 0) evs := by
  induction evs using snoc_induction with
  | h0 => exact ⟨rfl, rfl, rfl, rfl⟩
  | hs evs e ih =>
    obtain ⟨h1, h2⟩ := orderly_snoc h
    have hi := inv_run evs h1
    obtain ⟨i1, i2, i3, i4⟩ := ih h1 (fun r q hr hq => hs r q (List.mem_append_left _ hr) (List.mem_append_left _ hq))
    rw [run_snoc]
    cases e with
    | tick t =>
      have hk := fun w => known_snoc w evs (.tick t) (.inl (by simp))
      have hf := fun w => final_end w (e := .tick t) (by simp) evs
      simp only [hk, hf]
      exact ⟨i1, i2, i3, i4⟩
    | fin i =>
      have hk := fun w => known_snoc w evs (.fin i) (.inl (by simp))
      have hf := fun w => final_end w (e := .fin i) (by simp) evs
      have hst : (step (run evs) (.fin i)).down = (run evs).down ∧ (step (run evs) (.fin i)).up = (run evs).up ∧
          (step (run evs) (.fin i)).otherDown = (run evs).otherDown ∧ (step (run evs) (.fin i)).otherUp = (run evs).otherUp := by
        simp only [step, finish]
        split <;> exact ⟨rfl, rfl, rfl, rfl⟩
      simp only [hk, hf, hst]
      exact ⟨i1, i2, i3, i4⟩
    | sweep =>
      have hf := fun w => final_end w (e := .sweep) (by simp) evs
      obtain ⟨_, _, _, _, _, e6, e7, e8, e9⟩ := sweep_sessions (run evs)
      have hsw : step (run evs) .sweep = sweep (run evs) := rfl
      rw [hsw, e6, e7, e8, e9]
      by_cases hx : (run evs).first = true
      · have hn := hi.first.mp hx
        simp only [if_pos hx, hf, fun w => known_first w evs hn]
        simp
      · have hn : .sweep ∈ evs := by
          by_cases hm : .sweep ∈ evs
          · exact hm
          · exact absurd (hi.first.mpr hm) hx
        simp only [if_neg hx, hf, fun w => known_snoc w evs .sweep (.inr hn)]
        exact ⟨i1, i2, i3, i4⟩
    | rep r =>
      obtain ⟨rest, e1, e2, e3, e4, e5, e6, e7, e8, e9⟩ := report_effect hi h2
      have hk := fun w => known_snoc w evs (.rep r) (.inl (by simp))
      have hf := fun w => final_snoc w r evs
      have hfree : (find (run evs).sessions r.sid).free.getD r.free = r.free := by
        cases hx : (find (run evs).sessions r.sid).free with
        | none => rfl
        | some g =>
          obtain ⟨q, q1, q2, q3⟩ := hi.free r.sid g hx
          have := hs q r (List.mem_append_left _ q1) (by simp) q2
          simp only [Option.getD_some]
          rw [← q3, this]
      have hw : ∀ (w : Report → Nat) (b : Bool), r.free = b →
          worth (fun r => if r.free then 0 else w r) (current r.sid evs) = (if b then 0 else worth w (current r.sid evs)) ∧
          worth (fun r => if r.free then w r else 0) (current r.sid evs) = (if b then worth w (current r.sid evs) else 0) := by
        intro w b hb
        cases hc : current r.sid evs with
        | none => cases b <;> exact ⟨rfl, rfl⟩
        | some q =>
          obtain ⟨q1, q2⟩ := current_mem r.sid evs q hc
          have := hs q r (List.mem_append_left _ q1) (by simp) q2
          simp only [worth, this, hb]
          exact ⟨trivial, trivial⟩
      rw [e6, e7, e8, e9]
      simp only [hk, hfree, i1, i2, i3, i4]
      have f1 := hf (fun r => if r.free then 0 else r.down)
      have f2 := hf (fun r => if r.free then 0 else r.up)
      have f3 := hf (fun r => if r.free then r.down else 0)
      have f4 := hf (fun r => if r.free then r.up else 0)
      cases hb : r.free with
      | true =>
        have d := hw Report.down true hb
        have u := hw Report.up true hb
        rw [d.1] at f1; rw [u.1] at f2; rw [d.2] at f3; rw [u.2] at f4
        simp only [hb, if_true] at f1 f2 f3 f4 ⊢
        refine ⟨?_, ?_, ?_, ?_⟩ <;> omega
      | false =>
        have d := hw Report.down false hb
        have u := hw Report.up false hb
        rw [d.1] at f1; rw [u.1] at f2; rw [d.2] at f3; rw [u.2] at f4
        simp only [hb, Bool.false_eq_true, if_false] at f1 f2 f3 f4 ⊢
        refine ⟨?_, ?_, ?_, ?_⟩ <;> omega

/-- C100: the numbers of sessions by kind, and the access log: one line for each session that ended, with its last counters.

Partial: for a session that is silent for ten minutes before it ends see `C100_access_fails`. -/
theorem C100_sessions_partial (evs : List Ev) (h : Orderly evs) : (∀ k, (run evs).count k = starts k evs) ∧ (run evs).access = lines evs := by
  induction evs using snoc_induction with
  | h0 => exact ⟨fun k => rfl, rfl⟩
  | hs evs e ih =>
    obtain ⟨h1, h2⟩ := orderly_snoc h
    have hi := inv_run evs h1
    obtain ⟨i1, i2⟩ := ih h1
    rw [run_snoc]
    unfold starts at i1 ⊢
    unfold lines at i2 ⊢
    rw [List.reverse_append]
    simp only [List.reverse_cons, List.reverse_nil, List.nil_append, List.singleton_append]
    cases e with
    | tick t => exact ⟨i1, i2⟩
    | sweep =>
      obtain ⟨_, _, _, e4, e5, _⟩ := sweep_sessions (run evs)
      have hsw : step (run evs) .sweep = sweep (run evs) := rfl
      rw [hsw, e4, e5]
      exact ⟨i1, i2⟩
    | rep r =>
      obtain ⟨rest, e1, e2, e3, e4, e5, e6, e7, e8, e9⟩ := report_effect hi h2
      rw [e4, e5]
      refine ⟨fun k => ?_, i2⟩
      simp only [startsRev, List.reverse_reverse, ← i1]
      by_cases hc : current r.sid evs = none ∧ r.stream ≠ []
      · rw [if_pos hc]
        by_cases hk : kindOf r.sid = k
        · rw [if_pos ⟨hc.1, hk, hc.2⟩]
          simp [bump, hk]
        · rw [if_neg (fun h => hk h.2.1)]
          simp [bump, Ne.symm hk]
      · rw [if_neg hc, if_neg (fun h => hc ⟨h.1, h.2.2⟩)]
        rfl
    | fin i =>
      obtain ⟨_, m3, m4⟩ := match_last (hi.sess i)
      simp only [step, finish, startsRev, linesRev, List.reverse_reverse]
      by_cases hf0 : (find (run evs).sessions i).last.first = 0
      · rw [if_pos hf0]
        have hc := m3.mp hf0
        refine ⟨i1, ?_⟩
        rw [hc]
        cases opening i evs <;> exact i2
      · rw [if_neg hf0]
        obtain ⟨q, hq⟩ : ∃ q, current i evs = some q := by
          cases hc : current i evs with
          | none => exact absurd (m3.mpr hc) hf0
          | some q => exact ⟨q, rfl⟩
        obtain ⟨p, hp, hl, hst, hp0, hlat⟩ := m4 q hq
        refine ⟨i1, ?_⟩
        rw [hq, hp]
        simp only [List.reverse_cons, ← i2, hl, hst]
        rfl

end Verif.Totals
