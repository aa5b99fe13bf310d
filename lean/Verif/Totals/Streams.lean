import Verif.Totals.Props

/-! # Theorems about the numbers of streams -/
namespace Verif.Totals

open Verif Spec

/-! ## The logs of sessions -/

def Desc (log : List (Nat × Entry)) : Prop := log.Pairwise (fun a b => b.1 < a.1)

theorem keep_mem {boot : Nat} {r : Report} {log : List (Nat × Entry)} (key : Nat) :
    (∃ e, (key, e) ∈ keep boot r log) ↔ cutoff boot ≤ key ∧ (key = r.now ∨ ∃ e, (key, e) ∈ log) := by
  unfold keep
  dsimp only
  generalize ({ time := r.time, first := if (log.head?.map fun p => p.2.first).getD 0 = 0 then r.now else (log.head?.map fun p => p.2.first).getD 0, down := r.down, up := r.up, stream := r.stream } : Entry) = E
  cases log with
  | nil =>
    simp only [List.mem_filter, List.mem_singleton, List.not_mem_nil, exists_false, or_false, decide_eq_true_eq, Prod.mk.injEq]
    constructor
    · rintro ⟨e, ⟨h1, h2⟩, h3⟩; exact ⟨h3, h1⟩
    · rintro ⟨h3, h1⟩; exact ⟨E, ⟨h1, rfl⟩, h3⟩
  | cons p l =>
    obtain ⟨pk, pe⟩ := p
    dsimp only
    split
    next hp =>
      simp only [List.mem_filter, List.mem_cons, decide_eq_true_eq, Prod.mk.injEq]
      constructor
      · rintro ⟨e, ⟨h1, _⟩ | h1, h3⟩
        · exact ⟨h3, .inl h1⟩
        · exact ⟨h3, .inr ⟨e, .inr h1⟩⟩
      · rintro ⟨h3, h1 | ⟨e, ⟨h1, _⟩ | h1⟩⟩
        · exact ⟨E, .inl ⟨h1, rfl⟩, h3⟩
        · exact ⟨E, .inl ⟨h1.trans hp, rfl⟩, h3⟩
        · exact ⟨e, .inr h1, h3⟩
    next hp =>
      simp only [List.mem_filter, List.mem_cons, decide_eq_true_eq, Prod.mk.injEq]
      constructor
      · rintro ⟨e, ⟨h1, _⟩ | h1, h3⟩
        · exact ⟨h3, .inl h1⟩
        · exact ⟨h3, .inr ⟨e, h1⟩⟩
      · rintro ⟨h3, h1 | ⟨e, h1⟩⟩
        · exact ⟨E, .inl ⟨h1, rfl⟩, h3⟩
        · exact ⟨e, .inr h1, h3⟩

theorem keep_desc {boot : Nat} {r : Report} {x : Sess} (h : Desc x.log) (hs : ¬ r.now < x.stop) : Desc (keep boot r x.log) := by
  unfold keep
  dsimp only
  generalize ({ time := r.time, first := if (x.log.head?.map fun p => p.2.first).getD 0 = 0 then r.now else (x.log.head?.map fun p => p.2.first).getD 0, down := r.down, up := r.up, stream := r.stream } : Entry) = E
  apply List.Pairwise.filter
  unfold Sess.stop at hs
  cases hl : x.log with
  | nil => simp
  | cons p l =>
    rw [hl] at hs h
    simp only [List.head?_cons, Option.map_some, Option.getD_some] at hs
    have hh := List.pairwise_cons.mp h
    dsimp only
    split
    next hp =>
      refine List.pairwise_cons.mpr ⟨fun q hq => ?_, hh.2⟩
      have := hh.1 q hq
      show q.1 < r.now
      omega
    next hp =>
      refine List.pairwise_cons.mpr ⟨fun q hq => ?_, h⟩
      rcases List.mem_cons.mp hq with rfl | hq
      · show q.1 < r.now
        omega
      · have := hh.1 q hq
        show q.1 < r.now
        omega

theorem report_sessions {evs : List Ev} {s : State} {r : Report} (h : Inv evs s) (he : Expected evs (.rep r)) :
    ∃ f, (step s (.rep r)).sessions = put s.sessions r.sid { free := f, log := keep s.boot r (find s.sessions r.sid).log } := by
  obtain ⟨h1, h2, h3⟩ := expected_accepted h he
  simp only [step, if_pos h3]
  unfold update
  dsimp only
  rw [if_neg h1]
  generalize ({ find s.sessions r.sid with log := keep s.boot r (find s.sessions r.sid).log } : Sess).last = E
  have hr := server_rest s r (find s.sessions r.sid) (find s.sessions r.sid).last E
  generalize server s r (find s.sessions r.sid) (find s.sessions r.sid).last E = u at hr ⊢
  obtain ⟨u1, u2⟩ := u
  dsimp only at hr ⊢
  have hs := started_rest u1 (kindOf r.sid) (find s.sessions r.sid).last E
  have hf := stream_frame (started u1 (kindOf r.sid) (find s.sessions r.sid).last E) (kindOf r.sid) u2
    (if (find s.sessions r.sid).last.first = 0 then 0 else r.now - (find s.sessions r.sid).stop) (find s.sessions r.sid).last E
  refine ⟨u2, ?_⟩
  rw [hf.1, hs.1, hr.1]

/-- The log of a session has the times of its reports within the last ten minutes. -/
structure Logs (evs : List Ev) (x : Sess) (sid : Bytes) : Prop where
  desc : Desc x.log
  sound : ∀ key e, (key, e) ∈ x.log → ∃ r, .rep r ∈ evs ∧ r.sid = sid ∧ r.now ≤ key
  complete : ∀ r, .rep r ∈ evs → r.sid = sid → clock evs ≤ r.now + 600 → ∃ e, (r.now, e) ∈ x.log

theorem logs_run (evs : List Ev) (h : Orderly evs) : ∀ sid, Logs evs (find (run evs).sessions sid) sid := by
  induction evs using snoc_induction with
  | h0 =>
    intro sid
    exact ⟨List.Pairwise.nil, fun _ _ h => (by cases h), fun _ h => (by cases h)⟩
  | hs evs e ih =>
    obtain ⟨h1, h2⟩ := orderly_snoc h
    have hi := inv_run evs h1
    have ih := ih h1
    rw [run_snoc]
    generalize run evs = s at hi ih
    -- a session that stays as it is
    have same : ∀ {sid} {x : Sess}, Logs evs x sid → (∀ r, e = .rep r → r.sid ≠ sid) → clock evs ≤ clock (evs ++ [e]) → Logs (evs ++ [e]) x sid := by
      intro sid x hx hne hc
      refine ⟨hx.desc, fun key en hk => ?_, fun r hr hs' hcl => ?_⟩
      · obtain ⟨r, r1, r2⟩ := hx.sound key en hk
        exact ⟨r, List.mem_append_left _ r1, r2⟩
      · rcases List.mem_append.mp hr with hr | hr
        · exact hx.complete r hr hs' (by omega)
        · exact absurd hs' (hne r (List.mem_singleton.mp hr).symm)
    intro sid
    cases e with
    | tick t => exact same (ih sid) (fun r hr => by cases hr) (by rw [clock_snoc]; exact h2)
    | rep r =>
      have hc : clock (evs ++ [.rep r]) = clock evs := by rw [clock_snoc]
      obtain ⟨f, hf⟩ := report_sessions hi h2
      obtain ⟨a1, a2, a3⟩ := expected_accepted hi h2
      rw [hf, find_put]
      by_cases hs' : sid = r.sid
      · subst hs'
        rw [if_pos rfl]
        have hx := ih r.sid
        refine ⟨keep_desc hx.desc a1, fun key en hk => ?_, fun q hq hqs hcl => ?_⟩
        · obtain ⟨k1, k2 | ⟨e', k2⟩⟩ := (keep_mem key).mp ⟨en, hk⟩
          · exact ⟨r, by simp, rfl, by omega⟩
          · obtain ⟨q, q1, q2⟩ := hx.sound key e' k2
            exact ⟨q, List.mem_append_left _ q1, q2⟩
        · rw [hc] at hcl
          refine (keep_mem q.now).mpr ⟨?_, ?_⟩
          · rw [hi.boot]; unfold cutoff; omega
          · rcases List.mem_append.mp hq with hq | hq
            · exact .inr (hx.complete q hq hqs hcl)
            · cases List.mem_singleton.mp hq
              exact .inl rfl
      · rw [if_neg hs']
        exact same (ih sid) (fun q hq => by cases hq; exact fun hc => hs' hc.symm) (by omega)
    | fin i =>
      have hc : clock (evs ++ [.fin i]) = clock evs := by rw [clock_snoc]
      simp only [step, finish]
      split
      next hf0 =>
        show Logs _ (find (put s.sessions i (find s.sessions i)) sid) sid
        rw [find_put]
        split
        next hs' => subst hs'; exact same (ih sid) (fun r hr => by cases hr) (by omega)
        · exact same (ih sid) (fun r hr => by cases hr) (by omega)
      next hf0 =>
        show Logs _ (find (put s.sessions i _) sid) sid
        rw [find_put]
        split
        next hs' =>
          subst hs'
          have hx := same (ih sid) (fun r hr => by cases hr) (by omega : clock evs ≤ clock (evs ++ [.fin sid]))
          -- the log is not empty
          obtain ⟨q, hq⟩ : ∃ q, current sid evs = some q := by
            cases hcu : current sid evs with
            | none => exact absurd ((match_last (hi.sess sid)).2.1.mpr hcu) hf0
            | some q => exact ⟨q, rfl⟩
          have hm := hi.sess sid
          rw [hq] at hm
          cases ho : opening sid evs with
          | none => rw [ho] at hm; exact absurd hm id
          | some p =>
            rw [ho] at hm
            obtain ⟨_, _, rest, hl⟩ := hm
            have hst : (find s.sessions sid).stop = q.now := by simp [Sess.stop, hl]
            refine ⟨?_, ?_, ?_⟩
            · refine List.pairwise_cons.mpr ⟨fun y hy => ?_, hx.desc⟩
              show y.1 < (find s.sessions sid).stop + 1
              rw [hst]
              have hd := hx.desc
              rw [hl] at hd hy
              rcases List.mem_cons.mp hy with rfl | hy
              · exact Nat.lt_succ_self _
              · have := (List.pairwise_cons.mp hd).1 y hy
                exact Nat.lt_succ_of_lt this
            · intro key en hk
              rcases List.mem_cons.mp hk with hk | hk
              · cases hk
                obtain ⟨q1, q2⟩ := current_mem sid evs q hq
                exact ⟨q, List.mem_append_left _ q1, q2, by omega⟩
              · exact hx.sound key en hk
            · intro r hr hrs hcl
              obtain ⟨e', he'⟩ := hx.complete r hr hrs hcl
              exact ⟨e', List.mem_cons_of_mem _ he'⟩
        · exact same (ih sid) (fun r hr => by cases hr) (by omega)
    | sweep =>
      have hc : clock (evs ++ [.sweep]) = clock evs := by rw [clock_snoc]
      obtain ⟨e1, _⟩ := sweep_sessions s
      have hsw : step s .sweep = sweep s := rfl
      rw [hsw, e1]
      rcases find_filter (fun p : Bytes × Sess => decide (cutoff s.boot ≤ p.2.stop)) s.sessions hi.nodup sid with hk | ⟨hk, hP⟩
      · rw [hk]
        exact same (ih sid) (fun r hr => by cases hr) (by omega)
      · rw [hk]
        refine ⟨List.Pairwise.nil, fun _ _ h => (by cases h), fun r hr hrs hcl => ?_⟩
        exfalso
        have hr : .rep r ∈ evs := by
          rcases List.mem_append.mp hr with hr | hr
          · exact hr
          · cases List.mem_singleton.mp hr
        obtain ⟨en, hen⟩ := (ih sid).complete r hr hrs (by omega)
        have hP : ¬ (cutoff s.boot ≤ (find s.sessions sid).stop) := by simpa using hP
        apply hP
        have hd := (ih sid).desc
        rw [hi.boot]
        unfold cutoff Sess.stop
        cases hl : (find s.sessions sid).log with
        | nil => rw [hl] at hen; cases hen
        | cons p l =>
          rw [hl] at hen hd
          simp only [List.head?_cons, Option.map_some, Option.getD_some]
          rcases List.mem_cons.mp hen with hen | hen
          · have : p.1 = r.now := by rw [← hen]
            omega
          · have := (List.pairwise_cons.mp hd).1 _ hen
            simp only at this
            omega

/-! ## The numbers of a pass -/

/-- The session counts for the stream and the kind. -/
def counted (boot : Nat) (t : Bytes) (k : Kind) (p : Bytes × Sess) : Bool :=
  decide (p.2.last.stream = t) && decide (kindOf p.1 = k) && decide (cutoff boot ≤ p.2.stop) && since boot (delay k) p.2

theorem visit_counts (s : State) (p : Bytes × Sess) {t : Bytes} (ht : t ≠ []) (k : Kind) :
    (find (visit s p).streams t).sess = (find s.streams t).sess + (if p.2.last.stream = t then 1 else 0) ∧
    (find (visit s p).streams t).now k = (find s.streams t).now k + (if counted s.boot t k p = true then 1 else 0) := by
  unfold visit counted
  dsimp only
  by_cases h1 : p.2.last.stream = []
  · have h1' : ¬ p.2.last.stream = t := fun h => ht (h.symm.trans h1)
    by_cases h2 : p.2.stop < cutoff s.boot
    · simp [h1, h2, Ne.symm ht]
    · simp [h1, h2, Ne.symm ht]
  · by_cases h2 : p.2.stop < cutoff s.boot
    · have h2' : ¬ cutoff s.boot ≤ p.2.stop := by omega
      by_cases h3 : p.2.last.stream = t
      · subst h3
        simp [h1, h2, h2', find_put]
      · have h3' := Ne.symm h3
        simp [h1, h2, h3, h3', find_put]
    · have h2' : cutoff s.boot ≤ p.2.stop := by omega
      by_cases h3 : p.2.last.stream = t
      · subst h3
        by_cases h5 : since s.boot (delay (kindOf p.1)) p.2 = true
        · by_cases h4 : kindOf p.1 = .viewer
          · simp only [h4] at h5
            by_cases h6 : kindOf p.1 = k
            · rw [h4] at h6; subst h6
              simp [h1, h2, h2', h4, h5, find_put, bump]
            · rw [h4] at h6
              simp [h1, h2, h4, h5, h6, Ne.symm h6, find_put, bump]
          · by_cases h6 : kindOf p.1 = k
            · subst h6
              simp [h1, h2, h2', h4, h5, find_put, bump]
            · simp [h1, h2, h4, h5, h6, Ne.symm h6, find_put, bump]
        · by_cases h4 : kindOf p.1 = .viewer
          · simp only [h4] at h5
            by_cases h6 : kindOf p.1 = k
            · rw [h4] at h6; subst h6
              simp [h1, h2, h4, h5, find_put]
            · rw [h4] at h6
              simp [h1, h2, h4, h5, h6, find_put]
          · by_cases h6 : kindOf p.1 = k
            · subst h6
              simp [h1, h2, h4, h5, find_put]
            · simp [h1, h2, h4, h5, h6, find_put]
      · have h3' := Ne.symm h3
        by_cases h5 : since s.boot (delay (kindOf p.1)) p.2 = true
        · by_cases h4 : kindOf p.1 = .viewer
          · simp only [h4] at h5; simp [h1, h2, h3, h3', h4, h5, find_put]
          · simp [h1, h2, h3, h3', h4, h5, find_put]
        · by_cases h4 : kindOf p.1 = .viewer
          · simp only [h4] at h5; simp [h1, h2, h3, h3', h4, h5, find_put]
          · simp [h1, h2, h3, h3', h4, h5, find_put]

theorem visits_counts (l : List (Bytes × Sess)) {t : Bytes} (ht : t ≠ []) (k : Kind) : ∀ s : State,
    (find (l.foldl visit s).streams t).sess = (find s.streams t).sess + (l.filter fun p => p.2.last.stream = t).length ∧
    (find (l.foldl visit s).streams t).now k = (find s.streams t).now k + (l.filter (counted s.boot t k)).length := by
  induction l with
  | nil => intro s; simp
  | cons p l ih =>
    intro s
    obtain ⟨v1, v2⟩ := visit_counts s p ht k
    obtain ⟨i1, i2⟩ := ih (visit s p)
    have hb : (visit s p).boot = s.boot := (visit_frame s p).2.1
    rw [List.foldl_cons, i1, i2, v1, v2, hb, List.filter_cons, List.filter_cons]
    constructor
    · split <;> simp_all <;> omega
    · split <;> simp <;> omega

theorem visit_nodup {s : State} (p : Bytes × Sess) (h : (s.streams.map Prod.fst).Nodup) : ((visit s p).streams.map Prod.fst).Nodup := by
  unfold visit
  dsimp only
  repeat' split
  all_goals first | exact h | exact nodup_put _ _ h | exact nodup_put _ _ (nodup_put _ _ h)

theorem visits_nodup (l : List (Bytes × Sess)) : ∀ {s : State}, (s.streams.map Prod.fst).Nodup → ((l.foldl visit s).streams.map Prod.fst).Nodup := by
  induction l with
  | nil => exact fun h => h
  | cons p l ih => intro s h; rw [List.foldl_cons]; exact ih (visit_nodup p h)

theorem map_nodup {α : Type} (f : Bytes × α → α) (l : List (Bytes × α)) : (l.map fun p => (p.1, f p)).map Prod.fst = l.map Prod.fst := by
  rw [List.map_map]; rfl

theorem streams_nodup (evs : List Ev) : ((run evs).streams.map Prod.fst).Nodup := by
  induction evs using snoc_induction with
  | h0 => exact List.nodup_nil
  | hs evs e ih =>
    rw [run_snoc]
    generalize run evs = s at ih
    cases e with
    | tick t => exact ih
    | rep r =>
      simp only [step]
      split
      · unfold update
        dsimp only
        split
        · exact ih
        · have hs : ∀ E, (server s r (find s.sessions r.sid) (find s.sessions r.sid).last E).1.streams = s.streams := by
            intro E
            unfold server
            split
            · rfl
            · dsimp only
              split <;> rfl
          generalize ({ find s.sessions r.sid with log := keep s.boot r (find s.sessions r.sid).log } : Sess).last = E
          have hs := hs E
          generalize server s r (find s.sessions r.sid) (find s.sessions r.sid).last E = u at hs ⊢
          obtain ⟨u1, u2⟩ := u
          dsimp only at hs ⊢
          have h1 : ((started u1 (kindOf r.sid) (find s.sessions r.sid).last E).streams.map Prod.fst).Nodup := by
            unfold started
            split
            · simp only [hs]; exact nodup_put _ _ ih
            · rw [hs]; exact ih
          generalize started u1 (kindOf r.sid) (find s.sessions r.sid).last E = v at h1 ⊢
          unfold stream
          split
          · exact nodup_put _ _ h1
          · exact h1
      · exact ih
    | fin i =>
      simp only [step, finish]
      split <;> exact ih
    | sweep =>
      show ((sweep s).streams.map Prod.fst).Nodup
      unfold sweep
      dsimp only
      refine List.Nodup.sublist (List.Sublist.map _ List.filter_sublist) (visits_nodup _ ?_)
      unfold zeroed
      dsimp only
      rw [map_nodup (fun p : Bytes × Strm => { p.2 with now := fun _ => 0, sess := 0 })]
      unfold begun
      split
      · dsimp only
        rw [map_nodup (fun p : Bytes × Strm => { p.2 with down := 0, up := 0, seconds := 0 })]
        exact ih
      · exact ih

theorem find_all {α : Type} [Inhabited α] (P : α → Prop) (l : List (Bytes × α)) (h : ∀ p ∈ l, P p.2) (h0 : P default) (t : Bytes) : P (find l t) := by
  unfold find
  cases hf : l.find? (fun p => p.1 == t) with
  | none => exact h0
  | some p => exact h p (List.mem_of_find?_eq_some hf)

theorem find_mem {α : Type} [Inhabited α] : ∀ {l : List (Bytes × α)} {p : Bytes × α}, (l.map Prod.fst).Nodup → p ∈ l → find l p.1 = p.2
  | [], _, _, h => by cases h
  | q :: l, p, hn, h => by
    have hn := List.nodup_cons.mp (show (q.1 :: l.map Prod.fst).Nodup from hn)
    rcases List.mem_cons.mp h with rfl | h
    · simp [find]
    · have hne : (q.1 == p.1) = false := by
        have : ¬ q.1 = p.1 := fun he => hn.1 (he ▸ List.mem_map_of_mem h)
        simpa using this
      have : find (q :: l) p.1 = find l p.1 := by simp [find, hne]
      rw [this]
      exact find_mem hn.2 h

theorem mem_find {α : Type} [Inhabited α] (l : List (Bytes × α)) (k : Bytes) : find l k = default ∨ (k, find l k) ∈ l := by
  unfold find
  cases hf : l.find? (fun p => p.1 == k) with
  | none => exact .inl rfl
  | some p =>
    right
    have h1 := List.mem_of_find?_eq_some hf
    have h2 := List.find?_some hf
    have h2 : p.1 = k := by simpa using h2
    simp only [Option.map_some, Option.getD_some]
    rw [← h2]
    exact h1

theorem sweep_streams (s : State) (hn : (s.streams.map Prod.fst).Nodup) {t : Bytes} (ht : t ≠ []) (k : Kind) :
    ((∃ p ∈ (sweep s).streams, p.1 = t) ↔ ∃ p ∈ s.sessions, p.2.last.stream = t) ∧
    (find (sweep s).streams t).now k = (s.sessions.filter (counted s.boot t k)).length := by
  have hb1 : (begun s).sessions = s.sessions ∧ (begun s).boot = s.boot := by unfold begun; split <;> exact ⟨rfl, rfl⟩
  have hb2 : ((begun s).streams.map Prod.fst).Nodup := by
    unfold begun
    split
    · dsimp only
      rw [map_nodup (fun p : Bytes × Strm => { p.2 with down := 0, up := 0, seconds := 0 })]
      exact hn
    · exact hn
  unfold sweep
  dsimp only
  have h0 : ∀ P : Strm → Prop, (∀ x : Strm, P { x with now := fun _ => 0, sess := 0 }) →
      P (find (zeroed (begun s)).streams t) := by
    intro P hP
    refine find_all P _ ?_ (hP default) t
    intro p hp
    obtain ⟨q, _, rfl⟩ := List.mem_map.mp hp
    exact hP q.2
  have hvn : ((s.sessions.foldl visit (zeroed (begun s))).streams.map Prod.fst).Nodup := by
    apply visits_nodup
    unfold zeroed
    dsimp only
    rw [map_nodup (fun p : Bytes × Strm => { p.2 with now := fun _ => 0, sess := 0 })]
    exact hb2
  obtain ⟨v1, v2⟩ := visits_counts s.sessions ht k (zeroed (begun s))
  have z1 : (find (zeroed (begun s)).streams t).sess = 0 :=
    h0 (fun x => x.sess = 0) (fun _ => rfl)
  have z2 : (find (zeroed (begun s)).streams t).now k = 0 :=
    h0 (fun x => x.now k = 0) (fun _ => rfl)
  rw [z1, Nat.zero_add] at v1
  rw [z2, Nat.zero_add, show (zeroed (begun s)).boot = s.boot from hb1.2] at v2
  generalize List.foldl visit _ s.sessions = u at v1 v2 hvn ⊢
  have hex : (∃ p ∈ s.sessions, p.2.last.stream = t) ↔ 0 < (s.sessions.filter fun p => decide (p.2.last.stream = t)).length := by
    rw [List.length_pos_iff_exists_mem]
    simp only [List.mem_filter, decide_eq_true_eq]
  constructor
  · rw [hex, ← v1]
    constructor
    · rintro ⟨p, hp, rfl⟩
      have hp := List.mem_filter.mp hp
      have : p.2.sess ≠ 0 := by simpa [ht] using hp.2
      rw [find_mem hvn hp.1]
      omega
    · intro hpos
      rcases mem_find u.streams t with hd | hm
      · rw [hd] at hpos; exact absurd hpos (by decide)
      · refine ⟨_, List.mem_filter.mpr ⟨hm, ?_⟩, rfl⟩
        simp only [Bool.or_eq_true, decide_eq_true_eq]
        right
        omega
  · rcases find_filter (fun p : Bytes × Strm => decide (p.1 = []) || decide (p.2.sess ≠ 0)) u.streams hvn t with hk | ⟨hk, hP⟩
    · rw [hk, v2]
    · rw [hk]
      have h1 : (find u.streams t).sess = 0 := by simpa [ht] using hP
      rw [h1] at v1
      have : s.sessions.filter (counted s.boot t k) = [] := by
        rw [List.filter_eq_nil_iff]
        intro p hp hc
        have hx := List.filter_eq_nil_iff.mp (List.length_eq_zero_iff.mp v1.symm) p hp
        unfold counted at hc
        simp only [Bool.and_eq_true, decide_eq_true_eq] at hc hx
        exact hx hc.1.1.1
      rw [this]
      rfl

theorem open_stream {evs : List Ev} {s : State} (h : Inv evs s) (sid t : Bytes) (ht : t ≠ []) :
    (find s.sessions sid).last.stream = t ↔ ∃ q, current sid evs = some q ∧ q.stream = t := by
  have hm := match_last (h.sess sid)
  constructor
  · intro hx
    cases hc : current sid evs with
    | none =>
      have hmm := h.sess sid
      rw [hc] at hmm
      cases ho : opening sid evs with
      | none => rw [ho] at hmm; rw [hmm.1] at hx; exact absurd hx.symm ht
      | some p => rw [ho] at hmm; exact absurd hmm id
    | some q =>
      obtain ⟨p, _, hl, _⟩ := hm.2.2 q hc
      rw [hl] at hx
      exact ⟨q, rfl, hx⟩
  · rintro ⟨q, hc, hq⟩
    obtain ⟨p, _, hl, _⟩ := hm.2.2 q hc
    rw [hl]
    exact hq

theorem oldest {log : List (Nat × Entry)} (h : Desc log) {p q : Nat × Entry} (hp : log.getLast? = some p) (hq : q ∈ log) : p.1 ≤ q.1 := by
  obtain ⟨l, rfl⟩ := List.getLast?_eq_some_iff.mp hp
  rcases List.mem_append.mp hq with hq | hq
  · have := (List.pairwise_append.mp h).2.2 q hq p (by simp)
    omega
  · cases List.mem_singleton.mp hq
    exact Nat.le_refl _

/-- C101: after each pass a stream is listed if and only if a session that has not ended reported it last, and the numbers of viewers, inputs, outputs and others are the numbers
of those sessions that were there long enough: each counted session has a report that is at least fifteen seconds old (two for inputs), and each
session with such a report within the last ten minutes is counted. -/
theorem C101_current (evs : List Ev) (h : Orderly evs) {t : Bytes} (ht : t ≠ []) (k : Kind) :
    ((∃ p ∈ (run (evs ++ [.sweep])).streams, p.1 = t) ↔ ∃ sid q, current sid evs = some q ∧ q.stream = t) ∧
    ∃ ids : List Bytes, ids.Nodup ∧ (find (run (evs ++ [.sweep])).streams t).now k = ids.length ∧
      (∀ sid ∈ ids, kindOf sid = k ∧ (∃ q, current sid evs = some q ∧ q.stream = t) ∧
        (age k ≤ clock evs → ∃ r, .rep r ∈ evs ∧ r.sid = sid ∧ r.now + age k ≤ clock evs)) ∧
      (∀ sid q r, current sid evs = some q → q.stream = t → kindOf sid = k → .rep r ∈ evs → r.sid = sid → r.now + age k ≤ clock evs →
        clock evs ≤ r.now + 600 → sid ∈ ids) := by
  have hage : age k = delay k := by cases k <;> rfl
  rw [hage]
  have hi := inv_run evs h
  have hl := logs_run evs h
  rw [run_snoc]
  show ((∃ p ∈ (sweep (run evs)).streams, p.1 = t) ↔ _) ∧ _
  obtain ⟨h1, h2⟩ := sweep_streams (run evs) (streams_nodup evs) ht k
  refine ⟨?_, ((run evs).sessions.filter (counted (run evs).boot t k)).map Prod.fst, ?_, ?_, ?_, ?_⟩
  · rw [h1]
    constructor
    · rintro ⟨p, hp, hps⟩
      rw [← find_mem hi.nodup hp] at hps
      exact ⟨p.1, (open_stream hi p.1 t ht).mp hps⟩
    · rintro ⟨sid, hsid⟩
      have hps := (open_stream hi sid t ht).mpr hsid
      rcases mem_find (run evs).sessions sid with hd | hm
      · rw [hd] at hps; exact absurd hps.symm ht
      · exact ⟨_, hm, hps⟩
  · exact List.Nodup.sublist (List.Sublist.map _ List.filter_sublist) hi.nodup
  · show (find (sweep (run evs)).streams t).now k = _
    rw [h2, List.length_map]
  · intro sid hsid
    obtain ⟨p, hp, rfl⟩ := List.mem_map.mp hsid
    obtain ⟨hp, hc⟩ := List.mem_filter.mp hp
    unfold counted at hc
    simp only [Bool.and_eq_true, decide_eq_true_eq] at hc
    obtain ⟨⟨⟨c1, c2⟩, c3⟩, c4⟩ := hc
    rw [← find_mem hi.nodup hp] at c1 c3 c4
    refine ⟨c2, (open_stream hi p.1 t ht).mp c1, fun hd => ?_⟩
    unfold since at c4
    cases hg : (find (run evs).sessions p.1).log.getLast? with
    | none => rw [hg] at c4; cases c4
    | some o =>
      rw [hg] at c4
      have c4 : (run evs).boot < delay k ∨ o.1 ≤ (run evs).boot - delay k := by simpa using c4
      rw [hi.boot] at c4
      obtain ⟨r, r1, r2, r3⟩ := (hl p.1).sound o.1 o.2 (List.mem_of_getLast? hg)
      exact ⟨r, r1, r2, by omega⟩
  · intro sid q r hc hq hk hr hrs hold hnew
    obtain ⟨e, he⟩ := (hl sid).complete r hr hrs hnew
    have hps := (open_stream hi sid t ht).mpr ⟨q, hc, hq⟩
    rcases mem_find (run evs).sessions sid with hd | hm
    · rw [hd] at hps; exact absurd hps.symm ht
    · refine List.mem_map.mpr ⟨_, List.mem_filter.mpr ⟨hm, ?_⟩, rfl⟩
      unfold counted
      simp only [Bool.and_eq_true, decide_eq_true_eq]
      refine ⟨⟨⟨hps, hk⟩, ?_⟩, ?_⟩
      · -- the newest entry is at least as late
        have hd := (hl sid).desc
        rw [hi.boot]
        unfold cutoff Sess.stop
        cases hlog : (find (run evs).sessions sid).log with
        | nil => rw [hlog] at he; cases he
        | cons p l =>
          rw [hlog] at he hd
          simp only [List.head?_cons, Option.map_some, Option.getD_some]
          rcases List.mem_cons.mp he with he | he
          · have : p.1 = r.now := by rw [← he]
            omega
          · have := (List.pairwise_cons.mp hd).1 _ he
            simp only at this
            omega
      · unfold since
        cases hg : (find (run evs).sessions sid).log.getLast? with
        | none => rw [List.getLast?_eq_none_iff.mp hg] at he; cases he
        | some o =>
          have := oldest (hl sid).desc hg he
          simp only [Bool.or_eq_true, decide_eq_true_eq]
          right
          rw [hi.boot]
          simp only at this
          omega

/-! ## The totals of a stream -/

theorem server_streams (s : State) (r : Report) (x : Sess) (old new : Entry) : (server s r x old new).1.streams = s.streams := by
  unfold server
  split
  · rfl
  · dsimp only
    split <;> rfl

theorem report_streams {evs : List Ev} {s : State} {r : Report} (h : Inv evs s) (he : Expected evs (.rep r)) (t : Bytes) :
    find (step s (.rep r)).streams t =
      if t = r.stream ∧ t ≠ [] then
        let x := find s.streams t
        let x := if current r.sid evs = none then { x with total := bump x.total (kindOf r.sid) } else x
        if (find s.sessions r.sid).free.getD r.free = true then x
        else { x with up := x.up + (r.up - worth Report.up (current r.sid evs) : Int), down := x.down + (r.down - worth Report.down (current r.sid evs) : Int), seconds := x.seconds + (if kindOf r.sid = .viewer then r.now - worth Report.now (current r.sid evs) * 1 - (if current r.sid evs = none then r.now else 0) else 0 : Nat) }
      else find s.streams t := by
  obtain ⟨h1, h2, h3⟩ := expected_accepted h he
  obtain ⟨⟨m1, m2⟩, m3, m4⟩ := match_last (h.sess r.sid)
  obtain ⟨rest, hk⟩ := keep_head (r := r) (x := find s.sessions r.sid) h2
  have hle : worth Report.down (current r.sid evs) ≤ r.down ∧ worth Report.up (current r.sid evs) ≤ r.up := by
    cases hc : current r.sid evs with
    | none => exact ⟨Nat.zero_le _, Nat.zero_le _⟩
    | some q => exact he.2.2.2.2 q (by rw [hc]; rfl)
  have hsecs : (if (find s.sessions r.sid).last.first = 0 then 0 else r.now - (find s.sessions r.sid).stop) =
      r.now - worth Report.now (current r.sid evs) * 1 - (if current r.sid evs = none then r.now else 0) := by
    cases hc : current r.sid evs with
    | none => rw [if_pos (m3.mpr hc), if_pos rfl]; simp [worth]
    | some q =>
      obtain ⟨p, _, _, hst, _⟩ := m4 q hc
      rw [if_neg (fun h0 => by rw [m3.mp h0] at hc; cases hc), if_neg (by simp), hst]
      simp [worth]
  simp only [step, if_pos h3]
  unfold update
  dsimp only
  rw [if_neg h1, hk, hsecs]
  generalize r.now - worth Report.now (current r.sid evs) * 1 - (if current r.sid evs = none then r.now else 0) = n
  clear hsecs hk
  generalize hx : find s.sessions r.sid = x at *
  generalize hE : ({ time := r.time, first := if x.last.first = 0 then r.now else x.last.first, down := r.down, up := r.up, stream := r.stream } : Entry) = E at *
  have e1 : E.down = r.down := by rw [← hE]
  have e2 : E.up = r.up := by rw [← hE]
  have e3 : E.stream = r.stream := by rw [← hE]
  have hlast : ({ x with log := (r.now, E) :: rest } : Sess).last = E := rfl
  rw [hlast]
  have hc := server_counts s r x (old := x.last) (new := E) (by omega) (by omega)
  have hr := server_streams s r x x.last E
  generalize server s r x x.last E = u at hc hr ⊢
  obtain ⟨u1, u2⟩ := u
  simp only at hc hr ⊢
  have hc := hc.1
  subst hc
  unfold stream started
  simp only [m3, hr, e1, e2, e3, m1, m2]
  by_cases a1 : r.stream = []
  · by_cases a2 : t = r.stream
    · simp [a1, a2, hr]
    · simp [a1, a2, hr]
  · by_cases a2 : t = r.stream
    · subst a2
      by_cases a3 : current r.sid evs = none
      · by_cases a4 : x.free.getD r.free = true
        · simp [a1, a3, a4, find_put, hr]
        · simp [a1, a3, a4, find_put, hr]
      · by_cases a4 : x.free.getD r.free = true
        · simp [a1, a3, a4, hr]
        · simp [a1, a3, a4, find_put, hr]
    · by_cases a3 : current r.sid evs = none
      · by_cases a4 : x.free.getD r.free = true
        · simp [a1, a2, a3, a4, find_put, hr]
        · simp [a1, a2, a3, a4, find_put, hr]
      · by_cases a4 : x.free.getD r.free = true
        · simp [a1, a2, a3, a4, hr]
        · simp [a1, a2, a3, a4, find_put, hr]

/-- C101: what a report changes in the totals of streams. Only its own stream changes: the bytes by what the session has counted since its last report, the seconds, for
viewers, by the time since then, and the number of sessions by one if the session is new. Addresses that are not counted only count as sessions. -/
theorem C101_stream (evs : List Ev) (r : Report) (h : Orderly (evs ++ [.rep r])) (hs : Settled (evs ++ [.rep r])) (t : Bytes) :
    let a := find (run evs).streams t
    let b := find (run (evs ++ [.rep r])).streams t
    (t ≠ r.stream ∨ t = [] → b = a) ∧
    (t = r.stream → t ≠ [] →
      (∀ q, current r.sid evs = some q → b.total = a.total ∧
        b.up = a.up + (if r.free then 0 else (r.up : Int) - q.up) ∧ b.down = a.down + (if r.free then 0 else (r.down : Int) - q.down) ∧
        b.seconds = a.seconds + (if r.free = false ∧ kindOf r.sid = .viewer then (r.now : Int) - q.now else 0)) ∧
      (current r.sid evs = none → (∀ k, b.total k = a.total k + (if kindOf r.sid = k then 1 else 0)) ∧
        b.up = a.up + (if r.free then 0 else (r.up : Int)) ∧ b.down = a.down + (if r.free then 0 else (r.down : Int)) ∧ b.seconds = a.seconds)) := by
  obtain ⟨h1, h2⟩ := orderly_snoc h
  have hi := inv_run evs h1
  have hfree : (find (run evs).sessions r.sid).free.getD r.free = r.free := by
    cases hx : (find (run evs).sessions r.sid).free with
    | none => rfl
    | some g =>
      obtain ⟨q, q1, q2, q3⟩ := hi.free r.sid g hx
      have := hs q r (List.mem_append_left _ q1) (by simp) q2
      simp only [Option.getD_some]
      rw [← q3, this]
  have he := report_streams hi h2 t
  rw [run_snoc]
  intro a b
  have hb : b = find (step (run evs) (.rep r)).streams t := rfl
  rw [he, hfree] at hb
  clear_value b
  have ha : find (run evs).streams t = a := rfl
  rw [ha] at hb
  clear_value a
  refine ⟨?_, ?_⟩
  · intro hne
    rw [if_neg (fun hc => hne.elim (fun h => h hc.1) (fun h => hc.2 h))] at hb
    exact hb
  · intro hts ht
    rw [if_pos ⟨hts, ht⟩] at hb
    refine ⟨fun q hq => ?_, fun hq => ?_⟩
    · have hle : q.now ≤ r.now := by
        obtain ⟨p, _, _, _, _, hl⟩ := (match_last (hi.sess r.sid)).2.2 q hq
        exact (h2.2.2.2.1 q (by rw [hl]; rfl)).1
      rw [hq] at hb
      rw [hb]
      cases hf : r.free with
      | true => simp
      | false =>
        simp only [worth]
        simp
        split
        · omega
        · rfl
    · rw [hq] at hb
      rw [hb]
      cases hf : r.free with
      | true =>
        simp [bump]
        intro k
        by_cases hk : k = kindOf r.sid
        · simp [hk]
        · simp [hk, Ne.symm hk]
      | false =>
        simp [worth, bump]
        intro k
        by_cases hk : k = kindOf r.sid
        · simp [hk]
        · simp [hk, Ne.symm hk]

end Verif.Totals
