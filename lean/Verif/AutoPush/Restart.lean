import Verif.AutoPush.Check

/-!
# C97: pushes that are started again
-/
namespace Verif.AutoPush
open Spec

/-- The settings and the counter of one push are as before, and no entry was added. -/
def Same (st tg : Bytes) (s t : State) : Prop :=
  t.wait = s.wait ∧ t.speed = s.speed ∧ t.waiting st tg = s.waiting st tg ∧ t.auto.Sublist s.auto

theorem Same.refl (st tg : Bytes) (s : State) : Same st tg s s := ⟨rfl, rfl, rfl, List.Sublist.refl _⟩

theorem Same.trans {st tg : Bytes} {a b c : State} (h : Same st tg a b) (h' : Same st tg b c) : Same st tg a c :=
  ⟨h'.1.trans h.1, h'.2.1.trans h.2.1, h'.2.2.1.trans h.2.2.1, h'.2.2.2.trans h.2.2.2⟩

theorem same_start (env : Env) (st tg name t : Bytes) (s : State) : Same st tg s (startPush env s name t) := by
  rcases startPush_cases env s name t with ⟨h', _⟩ | ⟨_, ⟨h', _⟩ | ⟨pid, t', hf, h'⟩⟩ <;> rw [h'] <;> exact ⟨rfl, rfl, rfl, List.Sublist.refl _⟩

theorem removeName_sub (l : List Entry) (k : Bytes) : (removeName l k).Sublist l := by
  unfold removeName
  split
  · exact List.filter_sublist
  · exact removeLoop_sub _ _ _

theorem same_moves {env : Env} {es : List Entry} {st tg : Bytes} (hes : ∀ x ∈ es, x.target ≠ some tg) {a b : State × Int}
    (h : Moves env es a b) : Same st tg a.1 b.1 := by
  refine h.rel (fun a b => Same st tg a.1 b.1) (fun _ => Same.refl _ _ _) (fun _ _ _ => Same.trans) ?_
  intro a b hmv
  cases hmv with
  | wipe s' n => exact ⟨rfl, rfl, rfl, List.Sublist.refl _⟩
  | signal s' n pat t => exact ⟨rfl, rfl, rfl, List.Sublist.refl _⟩
  | wait s' n x name t k hx ht =>
    refine ⟨rfl, rfl, ?_, List.Sublist.refl _⟩
    show (if st = name ∧ tg = t then k else s'.waiting st tg) = s'.waiting st tg
    rw [if_neg]
    rintro ⟨_, rfl⟩
    exact hes x hx ht
  | remove s' n x pat hx hp hs hc => exact ⟨rfl, rfl, rfl, removeLoop_sub _ _ _⟩
  | drop s' n x hx hel => exact ⟨rfl, rfl, rfl, removeName_sub _ _⟩
  | start s' n x pat t name => exact same_start env st tg name t s'

/-- The counter after a check that did not start the push: one more, and not above the limit. -/
def Counted (w : Nat) (st tg : Bytes) (s t : State) : Prop :=
  s.waiting st tg + 1 ≤ t.waiting st tg ∧ t.waiting st tg ≤ w

/-- What is the same whether or not the push was started. -/
def Conf (s t : State) : Prop := t.wait = s.wait ∧ t.speed = s.speed ∧ t.auto = s.auto

/-- One stream in the loop over the active streams, for an entry without a scheduled time. -/
theorem startAll_one (env : Env) (e : Entry) (tg st name : Bytes) (rest : List Bytes) (s : State) (n : Int) (w : Nat)
    (hsch : e.schedule = none) (hw : s.wait = (w : Int)) (hw32 : w < 2 ^ 32) (hsp : s.speed = 0) :
    ∃ s2 n2, startAll env e tg (name :: rest) s n = startAll env e tg rest s2 n2 ∧ Keep s s2 ∧ Conf s s2 ∧
      (name ≠ st → s2.waiting st tg = s.waiting st tg) ∧
      (name = st → Free env st e → Works env st tg → Covered env s2 st tg ∨ Counted w st tg s s2) := by
  rw [startAll]
  by_cases ha : (isPushActive env s name tg).1 = true
  · rw [if_pos ha, (active_true ha).2]
    refine ⟨s, n, rfl, Keep.refl s, ⟨rfl, rfl, rfl⟩, fun _ => rfl, ?_⟩
    rintro rfl _ _
    exact .inl ((covered_iff ..).mpr (active_true ha).1)
  · rw [if_neg ha, (active_false ha).2]
    have hwait : ∀ x y, (wipe s).waiting x y = s.waiting x y := fun _ _ => rfl
    rw [hwait]
    dsimp only
    have hset : ∀ (s' : State) k, s'.waiting = s.waiting → name ≠ st → (setWaiting s' name tg k).waiting st tg = s.waiting st tg := by
      intro s' k hs' hne
      show (if st = name ∧ tg = tg then k else s'.waiting st tg) = s.waiting st tg
      rw [if_neg (fun h => hne h.1.symm), hs']
    generalize hk : (s.waiting name tg + 1) % 2 ^ 32 = k
    by_cases hcond : (s.waiting name tg : Int) ≥ s.wait ∧ (n < s.speed ∨ s.speed = 0)
    · have hcond' : (s.waiting name tg : Int) ≥ (setWaiting (wipe s) name tg k).wait ∧
          (n < (setWaiting (wipe s) name tg k).speed ∨ (setWaiting (wipe s) name tg k).speed = 0) := hcond
      rw [if_pos hcond']
      have hne2 : name ≠ st → (setWaiting (setWaiting (wipe s) name tg k) name tg 0).waiting st tg = s.waiting st tg := by
        intro hne
        show (if st = name ∧ tg = tg then 0 else (setWaiting (wipe s) name tg k).waiting st tg) = s.waiting st tg
        rw [if_neg (fun h => hne h.1.symm)]
        exact hset (wipe s) k rfl hne
      by_cases hi : inhibited env e name = true
      · rw [if_pos hi]
        refine ⟨_, n, rfl, keep_wipe s, ⟨rfl, rfl, rfl⟩, hne2, ?_⟩
        rintro rfl hf _
        rw [(inhibited_iff env e name).mpr hf] at hi
        cases hi
      · rw [if_neg hi]
        have hno : ¬ (e.schedule.isSome = true ∧ e.complete.isNone = true) := by rw [hsch]; simp
        rw [if_neg hno]
        have hss := same_start env st tg name tg (setWaiting (setWaiting (wipe s) name tg k) name tg 0)
        refine ⟨_, n + 1, rfl, (keep_wipe s).trans (keep_start env (setWaiting (setWaiting (wipe s) name tg k) name tg 0) name tg),
          ⟨hss.1, hss.2.1, start_auto ..⟩, ?_, ?_⟩
        · intro hne
          rw [hss.2.2.1]; exact hne2 hne
        · rintro rfl _ hworks
          exact .inl ((C97_start env _ name tg).2 hworks)
    · have hcond' : ¬ ((s.waiting name tg : Int) ≥ (setWaiting (wipe s) name tg k).wait ∧
          (n < (setWaiting (wipe s) name tg k).speed ∨ (setWaiting (wipe s) name tg k).speed = 0)) := hcond
      rw [if_neg hcond']
      refine ⟨_, n, rfl, keep_wipe s, ⟨rfl, rfl, rfl⟩, hset (wipe s) k rfl, ?_⟩
      rintro rfl _ _
      right
      have hlt : s.waiting name tg < w := by
        apply Nat.lt_of_not_ge
        intro h
        exact hcond ⟨by rw [hw]; omega, .inr hsp⟩
      have hkv : k = s.waiting name tg + 1 := by
        rw [← hk, Nat.mod_eq_of_lt]; omega
      have hv : (setWaiting (wipe s) name tg k).waiting name tg = s.waiting name tg + 1 := by
        show (if name = name ∧ tg = tg then k else _) = _
        rw [if_pos ⟨rfl, rfl⟩, hkv]
      exact ⟨by rw [hv]; omega, by rw [hv]; omega⟩

theorem startAll_rest (env : Env) (e : Entry) (tg st : Bytes) (w : Nat) (hsch : e.schedule = none) (hw32 : w < 2 ^ 32)
    (hf : Free env st e) (hworks : Works env st tg) : ∀ (names : List Bytes) (s : State) (n : Int), s.wait = (w : Int) → s.speed = 0 →
    Keep s (startAll env e tg names s n).1 ∧ Conf s (startAll env e tg names s n).1 ∧
      (Covered env (startAll env e tg names s n).1 st tg ∨ Counted w st tg s (startAll env e tg names s n).1 ∨
        (st ∉ names ∧ (startAll env e tg names s n).1.waiting st tg = s.waiting st tg))
  | [], s, n, hw, hsp => ⟨Keep.refl s, ⟨rfl, rfl, rfl⟩, .inr (.inr ⟨by simp, rfl⟩)⟩
  | name :: rest, s, n, hw, hsp => by
    obtain ⟨s2, n2, heq, hk, hc, hne, heqn⟩ := startAll_one env e tg st name rest s n w hsch hw hw32 hsp
    obtain ⟨ik, ic, ih⟩ := startAll_rest env e tg st w hsch hw32 hf hworks rest s2 n2 (hc.1.trans hw) (hc.2.1.trans hsp)
    rw [heq]
    refine ⟨hk.trans ik, ⟨ic.1.trans hc.1, ic.2.1.trans hc.2.1, ic.2.2.trans hc.2.2⟩, ?_⟩
    by_cases hn : name = st
    · rcases heqn hn hf hworks with h | h
      · exact .inl (covered_keep ik h)
      · rcases ih with h' | h' | h'
        · exact .inl h'
        · exact .inr (.inl ⟨by have := h.1; have := h'.1; omega, h'.2⟩)
        · exact .inr (.inl ⟨by have := h.1; omega, by have := h.2; omega⟩)
    · have := hne hn
      rcases ih with h' | h' | h'
      · exact .inl h'
      · exact .inr (.inl ⟨by rw [← this]; exact h'.1, h'.2⟩)
      · refine .inr (.inr ⟨?_, by rw [h'.2, this]⟩)
        intro hm
        rcases List.mem_cons.mp hm with h | h
        · exact hn h.symm
        · exact h'.1 h

/-- The conditions under which an entry is due for a stream at a check. -/
def Due (l : List Entry) (e : Entry) (pat st tg : Bytes) (env : Env) : Prop :=
  Meant env st pat ∧ st ∈ env.ready ∧ Free env st e ∧ Allowed env (Text.sanitizeName pat) e ∧ Works env st tg ∧ NoneEnded env l

theorem check_progress (env : Env) (s : State) (e : Entry) (pat st tg : Bytes) (w : Nat) (hnd : s.auto.Nodup) (he : e ∈ s.auto)
    (hp : e.stream = some pat) (ht : e.target = some tg) (honly : ∀ x ∈ s.auto, x.target = some tg → x = e) (hsch : e.schedule = none)
    (hw : s.wait = (w : Int)) (hw0 : 0 < w) (hw32 : w < 2 ^ 32) (hsp : s.speed = 0) (hdue : Due s.auto e pat st tg env) :
    (Covered env (runPushCheck env s) st tg ∨ Covered env (runPushCheck env s) pat tg ∨ Counted w st tg s (runPushCheck env s)) ∧
    e ∈ (runPushCheck env s).auto ∧ (runPushCheck env s).auto.Sublist s.auto ∧
    (runPushCheck env s).wait = s.wait ∧ (runPushCheck env s).speed = s.speed := by
  obtain ⟨hm, hr, hf, hall, hworks, hend⟩ := hdue
  obtain ⟨pre, post, hl⟩ := List.append_of_mem he
  have hel : ∀ x ∈ s.auto, elapsed env x = false := fun x hx => elapsed_false.mpr (hend x hx)
  have hpre : ∀ x ∈ pre, elapsed env x = false := fun x hx => hel x (by rw [hl]; simp [hx])
  have hpost : ∀ x ∈ post, elapsed env x = false := fun x hx => hel x (by rw [hl]; simp [hx])
  rw [hl, List.nodup_append, List.nodup_cons] at hnd
  have hpre' : ∀ x ∈ pre, x.target ≠ some tg := by
    intro x hx hxt
    have := honly x (by rw [hl]; simp [hx]) hxt
    subst this
    exact hnd.2.2 x hx x (by simp) rfl
  have hpost' : ∀ x ∈ post, x.target ≠ some tg := by
    intro x hx hxt
    have := honly x (by rw [hl]; simp [hx]) hxt
    subst this
    exact hnd.2.1.1 hx
  have hnoval : ∀ es : List Entry, ∀ x ∈ es, sameValue e x = true → x.schedule.isSome = true → ∀ pat, x.stream = some pat →
      checkPush env pat x = true → False := by
    intro es x _ hv hs _ _ _
    rw [← (sameValue_iff hv).2.2.1, hsch] at hs
    cases hs
  have hc : checkPush env pat e = true := (checkPush_iff env pat e).mpr ⟨(fun t h => by rw [hsch] at h; cases h), hall⟩
  obtain ⟨s', n', heq, hmv⟩ := checkAll_append env pre (e :: post) s 0 hpre
  have hin := auto_moves (hnoval pre) hmv hpre he
  have hsame := same_moves (st := st) hpre' hmv
  have hfin : runPushCheck env s = wipe (checkAll env post (checkEntry env e pat tg s' n').1 (checkEntry env e pat tg s' n').2) := by
    unfold runPushCheck
    rw [hl, heq, checkAll_cons env e post s' n' hin hp ht, if_neg (by simp [hel e he])]
  -- the treatment of the entry itself
  have hentry : (Covered env (checkEntry env e pat tg s' n').1 st tg ∨ Covered env (checkEntry env e pat tg s' n').1 pat tg ∨
      Counted w st tg s' (checkEntry env e pat tg s' n').1) ∧ Conf s' (checkEntry env e pat tg s' n').1 := by
    unfold checkEntry
    simp only [hc, Bool.not_true, Bool.false_eq_true, if_false]
    by_cases ha : (isPushActive env s' pat tg).1 = true
    · rw [if_pos ha, (active_true ha).2]
      exact ⟨.inr (.inl ((covered_iff ..).mpr (active_true ha).1)), rfl, rfl, rfl⟩
    · rw [if_neg ha, (active_false ha).2]
      have hww : (wipe s').wait = (w : Int) := hsame.1.trans hw
      have hws : (wipe s').speed = 0 := hsame.2.1.trans hsp
      rw [if_pos (.inl (by rw [hww]; omega))]
      obtain ⟨_, hconf, hres⟩ := startAll_rest env e tg st w hsch hw32 hf hworks (getActiveStreams env pat) (wipe s') n' hww hws
      have hstin : st ∈ getActiveStreams env pat := by
        unfold getActiveStreams
        by_cases hpat : pat ≠ []
        · rw [if_pos hpat]; exact List.mem_filter.mpr ⟨hr, (streamMatches_iff ..).mpr hm⟩
        · rw [if_neg hpat]; exact hr
      refine ⟨?_, hconf⟩
      rcases hres with h | h | h
      · exact .inl h
      · exact .inr (.inr h)
      · exact absurd hstin h.1
  obtain ⟨hres, hconf⟩ := hentry
  obtain ⟨m, hmv2⟩ := checkAll_moves env post (checkEntry env e pat tg s' n').1 (checkEntry env e pat tg s' n').2
  have hmv3 := hmv2.trans (.one (.wipe _ m))
  have hkeep2 := keep_moves hmv3
  have hsame2 := same_moves (st := st) hpost' hmv3
  have hin2 := auto_moves (hnoval post) hmv3 hpost (by rw [hconf.2.2]; exact hin)
  dsimp only at hkeep2 hsame2 hin2
  rw [← hfin] at hkeep2 hsame2 hin2
  refine ⟨?_, hin2, ?_, ?_, ?_⟩
  · rcases hres with h | h | h
    · exact .inl (covered_keep hkeep2 h)
    · exact .inr (.inl (covered_keep hkeep2 h))
    · refine .inr (.inr ⟨?_, ?_⟩)
      · rw [hsame2.2.2.1, ← hsame.2.2.1]; exact h.1
      · rw [hsame2.2.2.1]; exact h.2
  · have := hsame2.2.2.2
    rw [hconf.2.2] at this
    exact this.trans hsame.2.2.2
  · rw [hsame2.1, hconf.1, hsame.1]
  · rw [hsame2.2.1, hconf.2.1, hsame.2.1]

theorem auto_same (env : Env) (name st tg : Bytes) (s : State) (e : Entry) : Same st tg s (autoEntry env name s e) ∧ (autoEntry env name s e).auto = s.auto := by
  unfold autoEntry
  split
  · split
    · exact ⟨Same.refl .., rfl⟩
    · split
      · exact ⟨Same.refl .., rfl⟩
      · split
        · exact ⟨Same.refl .., rfl⟩
        · split
          · exact ⟨Same.refl .., rfl⟩
          · exact ⟨same_start .., start_auto ..⟩
  · exact ⟨Same.refl .., rfl⟩

theorem other_same {H : Env → Prop} (st tg : Bytes) (s : State) (op : Op) (h : Undisturbed H op) (hc : ∀ env, op ≠ .check env) :
    Same st tg s (step s op) ∧ (step s op).auto = s.auto := by
  cases op with
  | check env => exact absurd rfl (hc env)
  | became env name =>
    show Same st tg s (s.auto.foldl (autoEntry env name) s) ∧ (s.auto.foldl (autoEntry env name) s).auto = s.auto
    suffices hl : ∀ (l : List Entry) (s : State),
        Same st tg s (l.foldl (autoEntry env name) s) ∧ (l.foldl (autoEntry env name) s).auto = s.auto from hl _ s
    intro l
    induction l with
    | nil => exact fun s => ⟨Same.refl .., rfl⟩
    | cons e l ih =>
      intro s
      have h1 := auto_same env name st tg s e
      have h2 := ih (autoEntry env name s e)
      exact ⟨h1.1.trans h2.1, h2.2.trans h1.2⟩
  | start env a b => exact ⟨same_start .., start_auto ..⟩
  | stop pid => simp only [step]; split <;> exact ⟨Same.refl .., rfl⟩
  | stopStream a => exact ⟨⟨rfl, rfl, rfl, List.Sublist.refl _⟩, rfl⟩
  | hang pid => simp only [step]; split <;> exact ⟨Same.refl .., rfl⟩
  | hangStream a => exact ⟨⟨rfl, rfl, rfl, List.Sublist.refl _⟩, rfl⟩
  | list => exact ⟨⟨rfl, rfl, rfl, List.Sublist.refl _⟩, rfl⟩
  | add e => exact h.elim
  | remove n => exact h.elim
  | removeSpec e => exact h.elim
  | settings a b => exact h.elim
  | died pid => exact ⟨⟨rfl, rfl, rfl, List.Sublist.refl _⟩, rfl⟩
  | born pid => simp only [step]; split <;> exact ⟨Same.refl .., rfl⟩
  | status p => simp only [step]; split <;> exact ⟨Same.refl .., rfl⟩

/-- C97: with a waiting time, an automatic push that is due is running after one check more than the waiting time, however processes
end and whatever else is asked in between, as long as the configuration stays: after some check of the history a push of the stream to
the target runs (or one of a stream with the very name of the pattern). The target is only used by this entry, there is no limit on the
speed and no scheduled time. -/
theorem C97_restart (s : State) (e : Entry) (pat st tg : Bytes) (w : Nat) (hkeys : (s.auto.map (·.key)).Nodup) (he : e ∈ s.auto)
    (hp : e.stream = some pat) (ht : e.target = some tg) (honly : ∀ x ∈ s.auto, x.target = some tg → x = e) (hsch : e.schedule = none)
    (hw : s.wait = (w : Int)) (hw0 : 0 < w) (hw32 : w < 2 ^ 32) (hsp : s.speed = 0) (ops : List Op)
    (hops : ∀ o ∈ ops, Undisturbed (Due s.auto e pat st tg) o) (hn : w < checks ops) :
    ∃ pre env post, ops = pre ++ .check env :: post ∧
      (Covered env ((pre ++ [Op.check env]).foldl step s) st tg ∨ Covered env ((pre ++ [Op.check env]).foldl step s) pat tg) := by
  suffices main : ∀ (ops : List Op) (s' : State) (k : Nat), s'.auto.Sublist s.auto → e ∈ s'.auto → s'.wait = (w : Int) → s'.speed = 0 →
      k ≤ s'.waiting st tg → (0 < k → s'.waiting st tg ≤ w) → (∀ o ∈ ops, Undisturbed (Due s.auto e pat st tg) o) →
      w < checks ops + k →
      ∃ pre env post, ops = pre ++ .check env :: post ∧
        (Covered env ((pre ++ [Op.check env]).foldl step s') st tg ∨ Covered env ((pre ++ [Op.check env]).foldl step s') pat tg) from
    main ops s 0 (List.Sublist.refl _) he hw hsp (Nat.zero_le _) (fun h => absurd h (Nat.lt_irrefl 0)) hops (by omega)
  intro ops
  induction ops with
  | nil =>
    intro s' k _ _ _ _ hk hkw _ hlt
    have h0 : checks [] = 0 := rfl
    have := hkw (by omega)
    omega
  | cons o ops ih =>
    intro s' k hsub hin hw' hsp' hk hkw hops hlt
    have hops' : ∀ x ∈ ops, Undisturbed (Due s.auto e pat st tg) x := fun x hx => hops x (by simp [hx])
    by_cases hc : ∃ env, o = .check env
    · obtain ⟨env, rfl⟩ := hc
      have hdue : Due s.auto e pat st tg env := hops (.check env) (by simp)
      have hnd : s'.auto.Nodup := List.Sublist.nodup hsub ((List.pairwise_map.mp hkeys).imp (fun h he => h (by rw [he])))
      have hdue' : Due s'.auto e pat st tg env :=
        ⟨hdue.1, hdue.2.1, hdue.2.2.1, hdue.2.2.2.1, hdue.2.2.2.2.1, fun x hx => hdue.2.2.2.2.2 x (hsub.subset hx)⟩
      obtain ⟨hres, hin2, hsub2, hw2, hsp2⟩ := check_progress env s' e pat st tg w hnd hin hp ht
        (fun x hx => honly x (hsub.subset hx)) hsch hw' hw0 hw32 hsp' hdue'
      have hcount : checks (.check env :: ops) = checks ops + 1 := by
        unfold checks; rw [List.countP_cons_of_pos (by rfl)]
      rcases hres with h | h | h
      · exact ⟨[], env, ops, rfl, .inl h⟩
      · exact ⟨[], env, ops, rfl, .inr h⟩
      · obtain ⟨pre, env', post, h1, h2⟩ := ih (runPushCheck env s') (k + 1) (hsub2.trans hsub) hin2 (hw2.trans hw') (hsp2.trans hsp')
          (by have := h.1; omega) (fun _ => h.2) hops' (by omega)
        exact ⟨.check env :: pre, env', post, by rw [h1]; rfl, h2⟩
    · have hc' : ∀ env, o ≠ .check env := fun env h => hc ⟨env, h⟩
      have hcount : checks (o :: ops) = checks ops := by
        unfold checks
        rw [List.countP_cons_of_neg]
        cases o with
        | check env => exact absurd rfl (hc' env)
        | _ => simp
      obtain ⟨hsame, hauto⟩ := other_same (H := Due s.auto e pat st tg) st tg s' o (hops o (by simp)) hc'
      obtain ⟨pre, env', post, h1, h2⟩ := ih (step s' o) k (by rw [hauto]; exact hsub) (by rw [hauto]; exact hin) (hsame.1.trans hw')
        (hsame.2.1.trans hsp') (by rw [hsame.2.2.1]; exact hk) (by rw [hsame.2.2.1]; exact hkw) hops' (by omega)
      exact ⟨o :: pre, env', post, by rw [h1]; rfl, h2⟩

end Verif.AutoPush
