import Verif.AutoPush.Props

/-!
# C97: restarts, stops and removal of automatic pushes
-/
namespace Verif.AutoPush
open Spec

/-! ## Loops that remove elements -/

theorem removeLoop_sub {α : Type} (p : α → Bool) (l : List α) (i : Nat) : (removeLoop p l i).Sublist l := by
  fun_induction removeLoop p l i with
  | case1 l i h hp ih => exact ih.trans (List.eraseIdx_sublist l i)
  | case2 l i h hp ih => exact ih
  | case3 l i h => exact List.Sublist.refl l

theorem removeLoop_keep {α : Type} (p : α → Bool) (l : List α) (i : Nat) {x : α} (hx : x ∈ l) (hn : p x = false) :
    x ∈ removeLoop p l i := by
  fun_induction removeLoop p l i with
  | case1 l i h hp ih =>
    apply ih
    rw [List.mem_eraseIdx_iff_getElem]
    obtain ⟨j, hj, rfl⟩ := List.getElem_of_mem hx
    refine ⟨j, hj, ?_, rfl⟩
    rintro rfl
    rw [hn] at hp; cases hp
  | case2 l i h hp ih => exact ih hx
  | case3 l i h => exact hx

theorem removeLoop_from {α : Type} (p : α → Bool) (l : List α) (i : Nat) (hi : 1 ≤ i)
    (hno : ∀ j (h : j < l.length), 1 ≤ j → j < i → p l[j] = false) :
    removeLoop p l i = l.take 1 ++ (l.drop 1).filter fun x => !p x := by
  fun_induction removeLoop p l i with
  | case1 l i h hp ih =>
    cases l with
    | nil => simp at h
    | cons a l =>
      obtain ⟨k, rfl⟩ : ∃ k, i = k + 1 := ⟨i - 1, by omega⟩
      have hk : k < l.length := by simpa using h
      have hlen : after ((a :: l).eraseIdx (k + 1)) = 1 := rfl
      rw [hlen] at ih ⊢
      rw [ih (Nat.le_refl 1) (by intro j _ h1 h2; omega)]
      simp only [List.eraseIdx_cons_succ, List.take_succ_cons, List.take_zero, List.drop_succ_cons, List.drop_zero,
        List.singleton_append, List.cons.injEq, true_and]
      have hpk : p l[k] = true := by simpa using hp
      conv => rhs; rw [← List.take_append_drop k l, List.drop_eq_getElem_cons hk]
      rw [List.eraseIdx_eq_take_drop_succ, List.filter_append, List.filter_append, List.filter_cons_of_neg (by simp [hpk])]
  | case2 l i h hp ih =>
    apply ih (by omega)
    intro j hj h1 h2
    by_cases hji : j = i
    · subst hji; simpa using hp
    · exact hno j hj h1 (by omega)
  | case3 l i h =>
    have : (l.drop 1).filter (fun x => !p x) = l.drop 1 := by
      rw [List.filter_eq_self]
      intro x hx
      obtain ⟨j, hj, rfl⟩ := List.getElem_of_mem hx
      rw [List.length_drop] at hj
      rw [List.getElem_drop, hno (1 + j) (by omega) (by omega) (by omega)]
      rfl
    rw [this, List.take_append_drop]

theorem removeLoop_eq {α : Type} (p : α → Bool) (a : α) (l : List α) :
    removeLoop p (a :: l) 0 = if p a then l.take 1 ++ (l.drop 1).filter (fun x => !p x) else a :: l.filter (fun x => !p x) := by
  rw [removeLoop]
  simp only [List.length_cons, Nat.zero_lt_succ, dif_pos, List.getElem_cons_zero, List.eraseIdx_cons_zero]
  by_cases hp : p a = true
  · rw [if_pos hp, if_pos hp]
    cases l with
    | nil => rw [removeLoop]; simp
    | cons b l => rw [after, removeLoop_from p _ 1 (Nat.le_refl 1) (by intro j _ h1 h2; omega)]
  · rw [if_neg hp, if_neg hp, removeLoop_from p _ 1 (Nat.le_refl 1) (by intro j _ h1 h2; omega)]
    simp

/-- The entries of a stream, and those without one. -/
def OfStream (stream : Bytes) (e : Entry) : Prop := e.stream = none ∨ e.stream = some stream

instance (stream : Bytes) (e : Entry) : Decidable (OfStream stream e) := inferInstanceAs (Decidable (_ ∨ _))

/-- C97 (what is missing: see `C97_removal_fails`): the removal of the automatic pushes of a stream, asked by a name that is no key,
keeps all others in order, and when the request is made twice none is left of this stream. -/
theorem C97_removal_partial (l : List Entry) (stream : Bytes) (hk : ∀ e ∈ l, e.key ≠ stream) :
    ((removeName l stream).filter (fun e => !decide (OfStream stream e)) = l.filter (fun e => !decide (OfStream stream e))) ∧
    (∀ e ∈ removeName (removeName l stream) stream, ¬ OfStream stream e) ∧
    ((∀ e ∈ l.head?, ¬ OfStream stream e) → ∀ e ∈ removeName l stream, ¬ OfStream stream e) := by
  have hp : ∀ e : Entry, (decide (e.stream = none) || decide (e.stream = some stream)) = decide (OfStream stream e) := by
    intro e
    rw [Bool.eq_iff_iff, Bool.or_eq_true, decide_eq_true_iff, decide_eq_true_iff, decide_eq_true_iff]
    rfl
  have hname : ∀ m : List Entry, (∀ e ∈ m, e.key ≠ stream) → removeName m stream = removeLoop (fun e => decide (OfStream stream e)) m 0 := by
    intro m hm
    have : (m.any fun e => e.key == stream) = false := by
      rw [List.any_eq_false]; intro e he; simpa using hm e he
    unfold removeName
    rw [if_neg (by simp [this]), removeAllPush]
    simp only [hp]
  have h1 := hname l hk
  have hk2 : ∀ e ∈ removeName l stream, e.key ≠ stream := by
    intro e he; rw [h1] at he; exact hk e ((removeLoop_sub _ l 0).subset he)
  have h2 := hname _ hk2
  rw [h2, h1]
  generalize hq : (fun e : Entry => decide (OfStream stream e)) = q
  have hq' : ∀ e, q e = false ↔ ¬ OfStream stream e := by intro e; rw [← hq]; simp
  have hq2 : ∀ e : Entry, decide (OfStream stream e) = q e := by intro e; rw [← hq]
  simp only [hq2, ← hq']
  cases l with
  | nil => 
    have : removeLoop q [] 0 = [] := by rw [removeLoop]; simp
    rw [this, this]; simp
  | cons a l =>
    rw [removeLoop_eq]
    by_cases ha : q a = true
    · rw [if_pos ha]
      cases l with
      | nil =>
        have : removeLoop q [] 0 = [] := by rw [removeLoop]; simp
        simp [this, ha]
      | cons b l =>
        simp only [List.take_succ_cons, List.take_zero, List.drop_succ_cons, List.drop_zero, List.singleton_append]
        refine ⟨?_, ?_, ?_⟩
        · by_cases hb : q b = true
          · simp [ha, hb, List.filter_filter]
          · simp [ha, hb, List.filter_filter]
        · rw [removeLoop_eq]
          by_cases hb : q b = true
          · rw [if_pos hb]
            intro e he
            rcases List.mem_append.mp he with he | he
            · have := List.mem_of_mem_take he
              simpa using (List.mem_filter.mp this).2
            · simpa using (List.mem_filter.mp he).2
          · rw [if_neg hb]
            intro e he
            rcases List.mem_cons.mp he with rfl | he
            · simpa using hb
            · simpa using (List.mem_filter.mp he).2
        · intro h
          have := h a (by simp)
          rw [ha] at this; cases this
    · rw [if_neg ha]
      have ha' : q a = false := by simpa using ha
      refine ⟨?_, ?_, ?_⟩
      · simp [ha', List.filter_filter]
      · rw [removeLoop_eq, if_neg ha]
        intro e he
        rcases List.mem_cons.mp he with rfl | he
        · exact ha'
        · simpa using (List.mem_filter.mp he).2
      · intro _ e he
        rcases List.mem_cons.mp he with rfl | he
        · exact ha'
        · simpa using (List.mem_filter.mp he).2

/-- C97: the request to remove all automatic pushes of a stream can leave one of them configured. -/
theorem C97_removal_fails : ∃ (s : State) (stream : Bytes) (e : Entry),
    e ∈ (step s (.remove stream)).auto ∧ e.stream = some stream ∧ ∀ x ∈ s.auto, x.key ≠ stream := by
  refine ⟨{ auto := [{ key := [1], stream := some [97], target := some [1] }, { key := [2], stream := some [97], target := some [2] }] },
    [97], { key := [2], stream := some [97], target := some [2] }, ?_, rfl, by decide⟩
  simp only [step]
  have : removeName [{ key := [1], stream := some [97], target := some [1] }, { key := [2], stream := some [97], target := some [2] }] [97] =
      [{ key := [2], stream := some [97], target := some [2] }] := by
    unfold removeName removeAllPush
    rw [if_neg (by decide), removeLoop_eq]
    decide
  rw [this]; simp

/-! ## Values of entries -/

theorem sameValue_iff {a b : Entry} (h : sameValue a b = true) :
    a.stream = b.stream ∧ a.target = b.target ∧ a.schedule = b.schedule ∧ a.complete = b.complete ∧ a.startRule = b.startRule ∧
      a.endRule = b.endRule ∧ a.inhibit = b.inhibit := by
  unfold sameValue at h
  rw [beq_iff_eq] at h
  simpa using h

theorem checkPush_value {env : Env} {pat : Bytes} {a b : Entry} (h : sameValue a b = true) : checkPush env pat a = checkPush env pat b := by
  obtain ⟨_, _, h3, _, h5, h6, _⟩ := sameValue_iff h
  unfold checkPush rulesHold
  rw [h3, h5, h6]

theorem elapsed_value {env : Env} {a b : Entry} (h : sameValue a b = true) : elapsed env a = elapsed env b := by
  obtain ⟨_, _, _, h4, _⟩ := sameValue_iff h
  unfold elapsed
  rw [h4]

/-- The log only grows. -/
theorem log_moves {env : Env} {es : List Entry} {a b : State × Int} (h : Moves env es a b) : a.1.log <+: b.1.log := by
  have : Says (fun _ => True) a.1 b.1 := by
    refine h.rel (fun a b => Says (fun _ => True) a.1 b.1) (fun _ => Says.refl _ _) (fun _ _ _ => Says.trans) ?_
    intro a b hmv
    cases hmv with
    | wipe s' n => exact says_wipe s' (fun _ _ _ => trivial)
    | signal s' n pat tg => exact says_stop s' pat tg (fun _ _ _ => trivial) (fun _ => trivial)
    | wait s' n e name tg k he ht => exact ⟨[], by simp [setWaiting], by simp⟩
    | remove s' n e pat he hp hs hc => exact ⟨[], by simp, by simp⟩
    | drop s' n e he hel => exact ⟨[], by simp, by simp⟩
    | start s' n e pat tg name => exact says_start env s' name tg (fun _ _ _ => trivial) (fun _ => trivial)
  obtain ⟨new, hn, _⟩ := this
  exact ⟨new, hn.symm⟩

theorem start_auto (env : Env) (s : State) (st tg : Bytes) : (startPush env s st tg).auto = s.auto := by
  rcases startPush_cases env s st tg with ⟨h', _⟩ | ⟨_, ⟨h', _⟩ | ⟨pid, t, hf, h'⟩⟩ <;> rw [h'] <;> rfl

/-- An entry stays configured during a check unless its end time passed or it is a scheduled one that may be started. -/
theorem auto_moves {env : Env} {es : List Entry} {e : Entry} 
    (hno : ∀ x ∈ es, sameValue e x = true → x.schedule.isSome = true → ∀ pat, x.stream = some pat → checkPush env pat x = true → False)
    {a b : State × Int} (h : Moves env es a b) (hk : ∀ x ∈ es, elapsed env x = false) (he : e ∈ a.1.auto) : e ∈ b.1.auto := by
  refine h.rel (fun a b => e ∈ a.1.auto → e ∈ b.1.auto) (fun _ h => h) (fun _ _ _ h1 h2 h => h2 (h1 h)) ?_ he
  intro a b hmv he
  cases hmv with
  | wipe s' n => exact he
  | signal s' n pat tg => exact he
  | wait s' n x name tg k hx ht => exact he
  | remove s' n x pat hx hp hs hc =>
    refine removeLoop_keep _ _ _ he ?_
    by_cases hv : sameValue e x = true
    · exact (hno x hx hv hs pat hp hc).elim
    · simpa using hv
  | drop s' n x hx hel => rw [hk x hx] at hel; cases hel
  | start s' n x pat tg name => dsimp only at he ⊢; rw [start_auto]; exact he

theorem says_mem_news {s t u : State} {ev : Event} (hst : s.log <+: t.log) (htu : t.log <+: u.log) {new : List Event}
    (hev : ev ∈ new) (h : s.log ++ new <+: t.log ∨ ∃ x, s.log <+: x ∧ x ++ new <+: t.log) : ev ∈ news s u := by
  obtain ⟨z, hz⟩ := htu
  unfold news
  rw [← hz]
  rcases h with ⟨y, hy⟩ | ⟨x, ⟨w, hw⟩, ⟨y, hy⟩⟩
  · rw [← hy, List.append_assoc, List.append_assoc, List.drop_left]
    exact List.mem_append.mpr (.inl hev)
  · rw [← hy, ← hw, List.append_assoc, List.append_assoc, List.append_assoc, List.drop_left]
    exact List.mem_append.mpr (.inr (List.mem_append.mpr (.inl hev)))

theorem stop_log (s : State) (st tg : Bytes) (p : Push) (hp : p ∈ s.pushes) (hr : p.pid ∈ s.procs) (hs : stops st tg p = true) :
    ∃ new, .term p.pid ∈ new ∧ s.log ++ new <+: (stopActivePushes s st tg).log := by
  refine ⟨(s.pushes.filter fun p => decide (p.pid ∈ s.procs) && stops st tg p).map fun p => .term p.pid, ?_, List.prefix_append ..⟩
  refine List.mem_map.mpr ⟨p, List.mem_filter.mpr ⟨hp, ?_⟩, rfl⟩
  simp [hr, hs]

theorem checkAll_cons (env : Env) (e : Entry) (rest : List Entry) (s : State) (n : Int) {pat tg : Bytes} (hin : e ∈ s.auto)
    (hp : e.stream = some pat) (ht : e.target = some tg) :
    checkAll env (e :: rest) s n = if elapsed env e then
        { stopActivePushes s pat tg with auto := removeName (stopActivePushes s pat tg).auto e.key }
      else checkAll env rest (checkEntry env e pat tg s n).1 (checkEntry env e pat tg s n).2 := by
  rw [checkAll, if_pos hin, hp, ht]

/-! ## Stops -/

/-- C97 (what is missing: entries for wildcards and tags, see `C97_wildcard_stop_fails`; and end times of other entries that pass in the
same second): when the rules of an entry forbid it, a check sends the signal to end to each running push of its stream to its target. -/
theorem C97_stop_partial (env : Env) (s : State) (e : Entry) (pat tg : Bytes) (p : Push) (he : e ∈ s.auto) (hp : e.stream = some pat)
    (ht : e.target = some tg) (hend : NoneEnded env s.auto) (hno : ¬ Allowed env (Text.sanitizeName pat) e)
    (hmem : p ∈ s.pushes) (hrun : p.pid ∈ s.procs) (hst : p.stream = pat) (htg : p.orig = tg) :
    .term p.pid ∈ news s (step s (.check env)) := by
  obtain ⟨pre, post, hl⟩ := List.append_of_mem he
  have hel : ∀ x ∈ s.auto, elapsed env x = false := fun x hx => elapsed_false.mpr (hend x hx)
  have hpre : ∀ x ∈ pre, elapsed env x = false := fun x hx => hel x (by rw [hl]; simp [hx])
  have hc : checkPush env pat e = false := by
    rw [Bool.eq_false_iff]; intro h; exact hno ((checkPush_iff env pat e).mp h).2
  obtain ⟨s', n', heq, hmv⟩ := checkAll_append env pre (e :: post) s 0 hpre
  have hkeep := keep_moves hmv p hmem hrun
  have hin : e ∈ s'.auto := by
    refine auto_moves ?_ hmv hpre he
    intro x hx hv _ pat' hp' hc'
    have h1 := (sameValue_iff hv).1
    rw [hp, hp'] at h1
    cases h1
    rw [← checkPush_value hv, hc] at hc'
    cases hc'
  have hlog := log_moves hmv
  have hact : (isPushActive env s' pat tg).1 = true := by
    by_cases h : (isPushActive env s' pat tg).1 = true
    · exact h
    · exact absurd ⟨p, hkeep.1, hkeep.2, by simp [same, hst, htg]⟩ (active_false h).1
  obtain ⟨new, hnew, hpref⟩ := stop_log s' pat tg p hkeep.1 hkeep.2 (by simp [stops, hst, htg])
  have hentry : checkEntry env e pat tg s' n' = (stopActivePushes s' pat tg, n') := by
    unfold checkEntry
    simp only [hc, Bool.not_false, if_true, hact, (active_true hact).2]
  have hfin : (stopActivePushes s' pat tg).log <+: (runPushCheck env s).log := by
    unfold runPushCheck
    rw [hl, heq, checkAll_cons env e post s' n' hin hp ht, if_neg (by simp [hel e he]), hentry]
    obtain ⟨m, hm⟩ := checkAll_moves env post (stopActivePushes s' pat tg) n'
    exact (log_moves hm).trans (log_moves (.one (.wipe (env := env) (es := post) _ m)))
  exact says_mem_news (t := stopActivePushes s' pat tg) (u := runPushCheck env s) (hlog.trans ((List.prefix_append ..).trans hpref)) hfin
    hnew (.inr ⟨s'.log, hlog, hpref⟩)

/-- C97 (what is missing: entries for tags, see `C97_tag_end_fails`, and several entries that end in the same second, which are handled
one per check): when the end time of an entry passed, a check removes it and sends the signal to end to each running push to its target
of its stream, or of the streams of its wildcard. -/
theorem C97_end_partial (env : Env) (s : State) (e : Entry) (pat tg : Bytes) (hkeys : (s.auto.map (·.key)).Nodup) (he : e ∈ s.auto)
    (hp : e.stream = some pat) (ht : e.target = some tg) (hended : ∃ t, e.complete = some t ∧ t < env.now)
    (hothers : NoneEnded env (s.auto.filter fun x => x ≠ e)) :
    (∀ x ∈ (step s (.check env)).auto, x.key ≠ e.key) ∧
    ∀ p ∈ s.pushes, p.pid ∈ s.procs → p.orig = tg →
      (p.stream = pat ∨ ∃ base rest, pat = base ++ [0x2B] ∧ p.stream = pat ++ rest) → .term p.pid ∈ news s (step s (.check env)) := by
  obtain ⟨pre, post, hl⟩ := List.append_of_mem he
  have helE : elapsed env e = true := by
    obtain ⟨t, h1, h2⟩ := hended
    simp [elapsed, h1, h2]
  have hne : ∀ x ∈ pre, x ≠ e := by
    rintro x hx rfl
    rw [hl, List.map_append, List.map_cons, List.nodup_append] at hkeys
    exact hkeys.2.2 x.key (List.mem_map.mpr ⟨x, hx, rfl⟩) x.key (by simp) rfl
  have hpre : ∀ x ∈ pre, elapsed env x = false := fun x hx =>
    elapsed_false.mpr (hothers x (List.mem_filter.mpr ⟨by rw [hl]; simp [hx], by simpa using hne x hx⟩))
  obtain ⟨s', n', heq, hmv⟩ := checkAll_append env pre (e :: post) s 0 hpre
  have hin : e ∈ s'.auto := by
    refine auto_moves ?_ hmv hpre he
    intro x hx hv _ pat' hp' hc'
    have := elapsed_value (env := env) hv
    rw [helE, hpre x hx] at this
    cases this
  have hfin : runPushCheck env s =
      wipe { stopActivePushes s' pat tg with auto := removeName (stopActivePushes s' pat tg).auto e.key } := by
    unfold runPushCheck
    rw [hl, heq, checkAll_cons env e post s' n' hin hp ht, if_pos helE]
  constructor
  · show ∀ x ∈ (runPushCheck env s).auto, x.key ≠ e.key
    rw [hfin]
    show ∀ x ∈ removeName s'.auto e.key, x.key ≠ e.key
    intro x hx
    unfold removeName at hx
    rw [if_pos (by rw [List.any_eq_true]; exact ⟨e, hin, by simp⟩)] at hx
    simpa using (List.mem_filter.mp hx).2
  · intro p hmem hrun htg hst
    have hkeep := keep_moves hmv p hmem hrun
    have hlog := log_moves hmv
    have hstops : stops pat tg p = true := by
      rcases hst with h | ⟨base, rest, hb, hr⟩
      · simp [stops, htg, h]
      · have h1 : pat.getLast? = some 0x2B := by rw [hb]; simp
        have h2 : p.stream.take pat.length = pat := by rw [hr]; simp
        simp [stops, htg, h1, h2]
    obtain ⟨new, hnew, hpref⟩ := stop_log s' pat tg p hkeep.1 hkeep.2 hstops
    refine says_mem_news (t := stopActivePushes s' pat tg) (u := runPushCheck env s) (hlog.trans ((List.prefix_append ..).trans hpref)) ?_
      hnew (.inr ⟨s'.log, hlog, hpref⟩)
    rw [hfin]
    exact List.prefix_append ..

end Verif.AutoPush
