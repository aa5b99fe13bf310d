import Verif.AutoPush.Lemmas

/-!
# C97: automatic pushes
-/
namespace Verif.AutoPush
open Spec

/-! ## Conditions -/

/-- C97: the rules of an entry mean what the documentation of the operators says, for every variable, operator and value. -/
theorem C97_rules (env : Env) (stream : Bytes) (e : Entry) : rulesHold env stream e = true ↔ Allowed env stream e :=
  rulesHold_iff env stream e

/-- C97: which streams a pattern means. -/
theorem C97_pattern (env : Env) (stream pat : Bytes) : streamMatches env stream pat = true ↔ Meant env stream pat :=
  streamMatches_iff env stream pat

/-! ## Relations along a check -/

/-- Running pushes stay listed and running. -/
def Keep (s t : State) : Prop := ∀ p ∈ s.pushes, p.pid ∈ s.procs → p ∈ t.pushes ∧ p.pid ∈ t.procs

theorem Keep.refl (s : State) : Keep s s := fun _ h h' => ⟨h, h'⟩

theorem Keep.trans {a b c : State} (h : Keep a b) (h' : Keep b c) : Keep a c := fun p hp hr => h' p (h p hp hr).1 (h p hp hr).2

theorem keep_wipe (s : State) : Keep s (wipe s) := fun _ hp hr => ⟨mem_wipe.mpr ⟨hp, hr⟩, hr⟩

theorem keep_stop (s : State) (st tg : Bytes) : Keep s (stopActivePushes s st tg) := fun _ hp hr => ⟨mem_wipe.mpr ⟨hp, hr⟩, hr⟩

theorem keep_start (env : Env) (s : State) (st tg : Bytes) : Keep s (startPush env s st tg) := by
  rcases startPush_cases env s st tg with ⟨h, _⟩ | ⟨_, ⟨h, _⟩ | ⟨pid, t, hf, h⟩⟩
  · rw [h]; exact Keep.refl s
  · rw [h]; exact keep_wipe s
  · rw [h]
    intro p hp hr
    refine ⟨mem_put.mpr (.inr ⟨mem_wipe.mpr ⟨hp, hr⟩, ?_⟩), by simp [hr]⟩
    rintro he
    have he' : p.pid = pid := he
    exact hf (he' ▸ hr)

theorem keep_move {env : Env} {es : List Entry} {a b : State × Int} (h : Move env es a b) : Keep a.1 b.1 := by
  cases h with
  | wipe s n => exact keep_wipe s
  | signal s n pat tg => exact keep_stop s pat tg
  | wait s n e name tg k he ht => exact Keep.refl s
  | start s n e pat tg name => exact keep_start env s name tg
  | remove s n e => exact Keep.refl s
  | drop s n e => exact Keep.refl s

theorem keep_moves {env : Env} {es : List Entry} {a b : State × Int} (h : Moves env es a b) : Keep a.1 b.1 :=
  h.rel (fun a b => Keep a.1 b.1) (fun _ => Keep.refl _) (fun _ _ _ => Keep.trans) (fun _ _ => keep_move)

theorem covered_keep {env : Env} {s t : State} {st tg : Bytes} (h : Keep s t) (hc : Covered env s st tg) : Covered env t st tg := by
  obtain ⟨p, hp, hr, hs⟩ := hc
  exact ⟨p, (h p hp hr).1, (h p hp hr).2, hs⟩

theorem covered_iff (env : Env) (s : State) (st tg : Bytes) :
    Covered env s st tg ↔ ∃ p ∈ s.pushes, p.pid ∈ s.procs ∧ same env st tg p = true := by
  simp [Covered, same]

/-- Events are only added, and all the new ones have `P`. -/
def Says (P : Event → Prop) (s t : State) : Prop := ∃ new, t.log = s.log ++ new ∧ ∀ e ∈ new, P e

theorem Says.refl (P : Event → Prop) (s : State) : Says P s s := ⟨[], by simp, by simp⟩

theorem Says.trans {P : Event → Prop} {a b c : State} (h : Says P a b) (h' : Says P b c) : Says P a c := by
  obtain ⟨x, hx, px⟩ := h
  obtain ⟨y, hy, py⟩ := h'
  refine ⟨x ++ y, by rw [hy, hx, List.append_assoc], ?_⟩
  intro e he
  rcases List.mem_append.mp he with he | he
  · exact px e he
  · exact py e he

theorem says_news {P : Event → Prop} {s t : State} (h : Says P s t) : ∀ e ∈ news s t, P e := by
  obtain ⟨new, hn, hp⟩ := h
  intro e he
  rw [news, hn, List.drop_left] at he
  exact hp e he

theorem says_wipe {P : Event → Prop} (s : State) (h : ∀ p ∈ s.pushes, p.pid ∉ s.procs → P (.ended p.pid p.stream)) : Says P s (wipe s) := by
  refine ⟨_, rfl, ?_⟩
  intro e he
  simp only [List.mem_map, List.mem_filter, decide_eq_true_eq] at he
  obtain ⟨p, ⟨hp, hd⟩, rfl⟩ := he
  exact h p hp hd

theorem says_stop {P : Event → Prop} (s : State) (st tg : Bytes) (h : ∀ p ∈ s.pushes, p.pid ∉ s.procs → P (.ended p.pid p.stream))
    (ht : ∀ pid, P (.term pid)) : Says P s (stopActivePushes s st tg) := by
  refine Says.trans (b := { s with
    log := s.log ++ (s.pushes.filter fun p => decide (p.pid ∈ s.procs) && stops st tg p).map fun p => .term p.pid }) ⟨_, rfl, ?_⟩
    (says_wipe _ h)
  intro e he
  obtain ⟨p, _, rfl⟩ := List.mem_map.mp he
  exact ht _

theorem says_start {P : Event → Prop} (env : Env) (s : State) (st tg : Bytes)
    (h : ∀ p ∈ s.pushes, p.pid ∉ s.procs → P (.ended p.pid p.stream)) (hs : ∀ pid, P (.started pid st tg)) :
    Says P s (startPush env s st tg) := by
  rcases startPush_cases env s st tg with ⟨h', _⟩ | ⟨_, ⟨h', _⟩ | ⟨pid, t, hf, h'⟩⟩
  · rw [h']; exact Says.refl P s
  · rw [h']; exact says_wipe s h
  · rw [h']
    refine (says_wipe s h).trans ⟨[.started pid st tg], rfl, ?_⟩
    intro e he
    rw [List.mem_singleton.mp he]
    exact hs pid

/-! ## Starts by the check -/

theorem meant_plain {env : Env} {st pat : Bytes} (hp : Plain pat) (h : pat = [] ∨ Meant env st pat) : st = pat := by
  rcases h with h | h | ⟨base, rest, hb, _⟩ | ⟨tag, ht, _⟩
  · exact absurd h hp.1
  · exact h
  · exact absurd (by rw [hb]; simp) hp.2.2.1
  · exact absurd (by rw [ht]; rfl) hp.2.1

theorem elapsed_false {env : Env} {e : Entry} : elapsed env e = false ↔ ∀ t, e.complete = some t → env.now ≤ t := by
  unfold elapsed
  cases e.complete <;> simp

theorem checkPush_iff (env : Env) (pat : Bytes) (e : Entry) :
    checkPush env pat e = true ↔
      (∀ t, e.schedule = some t → (Text.sanitizeName pat).getLast? ≠ some 0x2B → t ≤ env.now) ∧
      Allowed env (Text.sanitizeName pat) e := by
  rw [← rulesHold_iff]
  unfold checkPush
  dsimp only
  generalize Text.sanitizeName pat = st
  cases e.schedule with
  | none => simp
  | some t =>
    by_cases hl : st.getLast? = some 0x2B
    · simp [hl]
    · by_cases ht : t > env.now
      · have ht' : ¬ t ≤ env.now := by omega
        simp [hl, ht, ht']
      · have ht' : t ≤ env.now := by omega
        simp [hl, ht']

/-- C97 (what is missing: the rules and the time of start of entries for wildcards and tags, see `C97_wildcard_rule_fails` and
`C97_wildcard_time_fails`): whatever the configuration and the state, each push started by a check belongs to an entry that means a
ready stream, that is not inhibited and whose end time has not passed; if the entry names one stream, its rules hold and its time has
come as well. -/
theorem C97_check_partial (env : Env) (s : State) (pid : Nat) (st tg : Bytes)
    (h : .started pid st tg ∈ news s (step s (.check env))) :
    st ∈ env.ready ∧ ∃ e ∈ s.auto, ∃ pat, e.stream = some pat ∧ e.target = some tg ∧ (pat = [] ∨ Meant env st pat) ∧ Free env st e ∧
      (∀ t, e.complete = some t → env.now ≤ t) ∧ (Plain pat → MayStart env e st tg) := by
  let P : Event → Prop := fun ev => ∀ pid st tg, ev = .started pid st tg →
    st ∈ env.ready ∧ ∃ e ∈ s.auto, ∃ pat, e.stream = some pat ∧ e.target = some tg ∧ (pat = [] ∨ Meant env st pat) ∧ Free env st e ∧
      (∀ t, e.complete = some t → env.now ≤ t) ∧ (Plain pat → MayStart env e st tg)
  suffices hs : Says P s (step s (.check env)) from says_news hs _ h pid st tg rfl
  obtain ⟨m, hm⟩ := check_moves env s
  refine hm.rel (fun a b => Says P a.1 b.1) (fun _ => Says.refl P _) (fun _ _ _ => Says.trans) ?_
  intro a b hmv
  have hend : ∀ s' : State, ∀ p ∈ s'.pushes, p.pid ∉ s'.procs → P (.ended p.pid p.stream) := by
    intro s' p _ _ pid st tg he; cases he
  cases hmv with
  | wipe s' n => exact says_wipe s' (hend s')
  | signal s' n pat tg => exact says_stop s' pat tg (hend s') (by intro pid a b c he; cases he)
  | wait s' n e name tg k he ht => exact ⟨[], by simp [setWaiting], by simp⟩
  | remove s' n e pat he hp hs hc => exact ⟨[], by simp, by simp⟩
  | drop s' n e he hel => exact ⟨[], by simp, by simp⟩
  | start s' n e pat tg name he hp ht hel hc hn hi hsp =>
    refine says_start env s' name tg (hend s') ?_
    intro pid pid' st' tg' heq
    simp only [Event.started.injEq] at heq
    obtain ⟨_, rfl, rfl⟩ := heq
    have hready : name ∈ env.ready ∧ (pat = [] ∨ Meant env name pat) := by
      unfold getActiveStreams at hn
      by_cases hpat : pat ≠ []
      · rw [if_pos hpat, List.mem_filter, streamMatches_iff] at hn
        exact ⟨hn.1, .inr hn.2⟩
      · rw [if_neg hpat] at hn
        exact ⟨hn, .inl (by simpa using hpat)⟩
    have hfree := (inhibited_iff env e name).mp hi
    have hcomp := elapsed_false.mp hel
    refine ⟨hready.1, e, he, pat, hp, ht, hready.2, hfree, hcomp, ?_⟩
    intro hplain
    have hst := meant_plain hplain hready.2
    subst hst
    obtain ⟨hsch, hall⟩ := (checkPush_iff env name e).mp hc
    rw [hplain.2.2.2] at hsch hall
    exact ⟨⟨name, hp, .inl rfl⟩, ht, hfree, hall, fun t h => hsch t h hplain.2.2.1, hcomp⟩

theorem starts_append (x y : List Event) : starts (x ++ y) = starts x ++ starts y := List.filter_append ..

theorem starts_one (pid : Nat) (x y : Bytes) : (starts [.started pid x y]).length = 1 := rfl

/-- C97: a check starts at most as many pushes as the configured speed, when there is one. -/
theorem C97_speed (env : Env) (s : State) (h : s.speed ≠ 0) :
    ((starts (news s (step s (.check env)))).length : Int) ≤ max s.speed 0 := by
  let R : State × Int → State × Int → Prop := fun a b =>
    b.1.speed = a.1.speed ∧ a.2 ≤ b.2 ∧ (a.1.speed ≠ 0 → b.2 ≤ max a.1.speed a.2) ∧
      ∃ new, b.1.log = a.1.log ++ new ∧ ((starts new).length : Int) ≤ b.2 - a.2
  have none_of_says : ∀ (a b : State) (n : Int), b.speed = a.speed → Says (fun ev => ∀ p x y, ev ≠ .started p x y) a b → R (a, n) (b, n) := by
    intro a b n hsp hsy
    obtain ⟨new, hn, hp⟩ := hsy
    refine ⟨hsp, Int.le_refl _, fun _ => by dsimp only; omega, new, hn, ?_⟩
    have : starts new = [] := by
      rw [starts, List.filter_eq_nil_iff]
      intro ev hev
      cases ev with
      | started p x y => exact absurd rfl (hp _ hev p x y)
      | term => simp
      | hup => simp
      | ended => simp
    rw [this]; simp
  obtain ⟨m, hm⟩ := check_moves env s
  have hR : R (s, 0) (runPushCheck env s, m) := by
    refine hm.rel R ?_ ?_ ?_
    · exact fun a => ⟨rfl, Int.le_refl _, fun _ => by omega, [], by simp, by simp [starts]⟩
    · rintro a b c ⟨h1, h2, h3, x, hx, lx⟩ ⟨k1, k2, k3, y, hy, ly⟩
      refine ⟨k1.trans h1, Int.le_trans h2 k2, ?_, x ++ y, by rw [hy, hx, List.append_assoc], ?_⟩
      · intro hne
        have := h3 hne
        have := k3 (by rw [h1]; exact hne)
        rw [h1] at this
        omega
      · rw [starts_append, List.length_append]
        omega
    · intro a b hmv
      have hend : ∀ s' : State, ∀ p ∈ s'.pushes, p.pid ∉ s'.procs → (fun ev : Event => ∀ p x y, ev ≠ .started p x y) (.ended p.pid p.stream) := by
        intro s' p _ _ pid st tg he; cases he
      cases hmv with
      | wipe s' n => exact none_of_says _ _ n rfl (says_wipe s' (hend s'))
      | signal s' n pat tg => exact none_of_says _ _ n rfl (says_stop s' pat tg (hend s') (by intro pid a b c he; cases he))
      | wait s' n e name tg k he ht => exact none_of_says _ _ n rfl ⟨[], by simp [setWaiting], by simp⟩
      | remove s' n e pat he hp hs hc => exact none_of_says _ _ n rfl ⟨[], by simp, by simp⟩
      | drop s' n e he hel => exact none_of_says _ _ n rfl ⟨[], by simp, by simp⟩
      | start s' n e pat tg name he hp ht hel hc hn hi hsp =>
        have hw : R (s', n) (wipe s', n) := none_of_says _ _ n rfl (says_wipe s' (hend s'))
        obtain ⟨_, _, _, x, hx, lx⟩ := hw
        have hmax : s'.speed ≠ 0 → n + 1 ≤ max s'.speed n := by intro hne; omega
        rcases startPush_cases env s' name tg with ⟨h', _⟩ | ⟨_, ⟨h', _⟩ | ⟨pid, t, hf, h'⟩⟩
        · rw [h']; exact ⟨rfl, by dsimp only; omega, hmax, [], by simp, by simp only [starts, List.filter_nil, List.length_nil]; omega⟩
        · rw [h']; exact ⟨rfl, by dsimp only; omega, hmax, x, hx, by dsimp only at lx ⊢; omega⟩
        · rw [h']
          refine ⟨rfl, by dsimp only; omega, hmax, x ++ [.started pid name tg], by dsimp only at hx ⊢; rw [hx, List.append_assoc], ?_⟩
          rw [starts_append, List.length_append, starts_one]
          dsimp only at lx ⊢
          omega
  obtain ⟨_, _, h3, new, hn, hl⟩ := hR
  have hnews : news s (step s (.check env)) = new := by
    show ((runPushCheck env s).log).drop s.log.length = new
    dsimp only at hn
    rw [hn, List.drop_left]
  rw [hnews]
  have := h3 h
  dsimp only at this hl
  omega

/-! ## No push twice -/

/-- No two listed pushes have the same stream and the same target. -/
def Uniq (s : State) : Prop := ∀ p ∈ s.pushes, ∀ q ∈ s.pushes, p.stream = q.stream → p.orig = q.orig → p = q

theorem uniq_wipe {s : State} (h : Uniq s) : Uniq (wipe s) :=
  fun p hp q hq => h p (mem_wipe.mp hp).1 q (mem_wipe.mp hq).1

theorem uniq_start {env : Env} {s : State} (st tg : Bytes) (h : Uniq s) : Uniq (startPush env s st tg) := by
  rcases startPush_cases env s st tg with ⟨h', _⟩ | ⟨_, ⟨h', _⟩ | ⟨pid, t, hf, h'⟩⟩
  · rw [h']; exact h
  · rw [h']; exact uniq_wipe h
  · rename_i hn
    have new : ∀ q ∈ (wipe s).pushes, ¬ (q.stream = st ∧ q.orig = tg) := by
      intro q hq ⟨h1, h2⟩
      rw [mem_wipe] at hq
      exact hn ⟨q, hq.1, hq.2, by simp [same, h1, h2]⟩
    rw [h']
    intro p hp q hq h1 h2
    rcases mem_put.mp hp with rfl | ⟨hp, _⟩ <;> rcases mem_put.mp hq with rfl | ⟨hq, _⟩
    · rfl
    · exact absurd ⟨h1.symm, h2.symm⟩ (new q hq)
    · exact absurd ⟨h1, h2⟩ (new p hp)
    · exact uniq_wipe h p hp q hq h1 h2

theorem uniq_auto (env : Env) (name : Bytes) (s : State) (e : Entry) (h : Uniq s) : Uniq (autoEntry env name s e) := by
  unfold autoEntry
  split
  · split
    · exact h
    · split
      · exact h
      · split
        · exact h
        · split
          · exact h
          · exact uniq_start _ _ h
  · exact h

theorem uniq_step {s : State} {op : Op} (hf : ¬ Foreign op) (h : Uniq s) : Uniq (step s op) := by
  cases op with
  | check env =>
    obtain ⟨m, hm⟩ := check_moves env s
    refine hm.rel (fun a b => Uniq a.1 → Uniq b.1) (fun _ h => h) (fun _ _ _ h1 h2 h => h2 (h1 h)) ?_ h
    intro a b hmv hu
    cases hmv with
    | wipe s' n => exact uniq_wipe hu
    | signal s' n pat tg => exact fun p hp q hq => hu p (mem_wipe.mp hp).1 q (mem_wipe.mp hq).1
    | wait s' n e name tg k he ht => exact hu
    | remove s' n e pat he hp hs hc => exact hu
    | drop s' n e he hel => exact hu
    | start s' n e pat tg name => exact uniq_start _ _ hu
  | became env name =>
    show Uniq (s.auto.foldl (autoEntry env name) s)
    generalize s.auto = l
    induction l generalizing s with
    | nil => exact h
    | cons e l ih => exact ih (uniq_auto env name s e h)
  | start env st tg => exact uniq_start st tg h
  | stop pid => simp only [step]; split <;> exact h
  | stopStream st => exact h
  | hang pid => simp only [step]; split <;> exact h
  | hangStream st => exact h
  | list => exact uniq_wipe h
  | add e => exact h
  | remove n => exact h
  | removeSpec e => exact h
  | settings w m => exact h
  | died pid => exact h
  | born pid => simp only [step]; split <;> exact h
  | status p => exact absurd trivial hf

/-- C97: in any history of checks, streams that come up, requests and processes that end, two listed pushes of the same stream to the
same target are one and the same push: nothing is pushed twice. (Pushes that were not started by the controller but announced
themselves are left out.) -/
theorem C97_once (ops : List Op) (h : ∀ o ∈ ops, ¬ Foreign o) (p q : Push) (hp : p ∈ (run ops).pushes) (hq : q ∈ (run ops).pushes)
    (hs : p.stream = q.stream) (ht : p.orig = q.orig) : p = q := by
  suffices hu : ∀ (ops : List Op) (s : State), (∀ o ∈ ops, ¬ Foreign o) → Uniq s → Uniq (ops.foldl step s) from
    hu ops {} h (fun p hp => by cases hp) p hp q hq hs ht
  intro ops
  induction ops with
  | nil => exact fun s _ h => h
  | cons o ops ih => exact fun s hf h => ih _ (fun x hx => hf x (by simp [hx])) (uniq_step (hf o (by simp)) h)

/-- C97: a request to push a stream to a target to which it is being pushed, also under a name that becomes the same target by the
replacement of variables, changes nothing; otherwise a push runs afterwards if a process can be started. -/
theorem C97_start (env : Env) (s : State) (st tg : Bytes) :
    (Covered env s st tg → step s (.start env st tg) = s) ∧
    (Works env st tg → Covered env (step s (.start env st tg)) st tg) := by
  have hcases := startPush_cases env s st tg
  rw [← covered_iff] at hcases
  constructor
  · intro hc
    rcases hcases with ⟨h, _⟩ | ⟨hn, _⟩
    · exact h
    · exact absurd hc hn
  · intro hw
    rcases hcases with ⟨h, hc⟩ | ⟨_, ⟨_, h⟩ | ⟨pid, t, hf, h⟩⟩
    · show Covered env (startPush env s st tg) st tg
      rw [h]; exact hc
    · obtain ⟨pid, t, hsp, h0, hnp⟩ := hw s.procs
      rcases h pid t hsp with h | h
      · exact absurd h h0
      · exact absurd h hnp
    · show Covered env (startPush env s st tg) st tg
      rw [h]
      exact ⟨⟨pid, st, tg, t⟩, mem_put.mpr (.inl rfl), by simp, rfl, .inl rfl⟩

/-! ## Streams that come up -/

theorem keep_auto (env : Env) (name : Bytes) (s : State) (e : Entry) : Keep s (autoEntry env name s e) := by
  unfold autoEntry
  split
  · split
    · exact Keep.refl s
    · split
      · exact Keep.refl s
      · split
        · exact Keep.refl s
        · split
          · exact Keep.refl s
          · exact keep_start env s _ _
  · exact Keep.refl s

theorem keep_autos (env : Env) (name : Bytes) : ∀ (l : List Entry) (s : State), Keep s (l.foldl (autoEntry env name) s)
  | [], s => Keep.refl s
  | e :: l, s => (keep_auto env name s e).trans (keep_autos env name l _)

/-- C97 (what is missing: scheduled times and end times, see `C97_scheduled_fails` and `C97_ended_start_fails`): each push started when
a stream becomes active belongs to an entry that means this stream, is not inhibited and whose rules hold for it; if the entry has no
times it may start. -/
theorem C97_became_partial (env : Env) (s : State) (name : Bytes) (pid : Nat) (st tg : Bytes)
    (h : .started pid st tg ∈ news s (step s (.became env name))) :
    st = Text.sanitizeName name ∧ ∃ e ∈ s.auto, ∃ pat, e.stream = some pat ∧ e.target = some tg ∧ Meant env name pat ∧ Free env name e ∧
      Allowed env st e ∧ (st = name → e.schedule = none → e.complete = none → MayStart env e st tg) := by
  let P : Event → Prop := fun ev => ∀ pid st tg, ev = .started pid st tg →
    st = Text.sanitizeName name ∧ ∃ e ∈ s.auto, ∃ pat, e.stream = some pat ∧ e.target = some tg ∧ Meant env name pat ∧ Free env name e ∧
      Allowed env st e ∧ (st = name → e.schedule = none → e.complete = none → MayStart env e st tg)
  suffices hs : ∀ (l : List Entry) (s' : State), (∀ e ∈ l, e ∈ s.auto) → Says P s' (l.foldl (autoEntry env name) s') from
    says_news (hs s.auto s (fun _ h => h)) _ h pid st tg rfl
  intro l
  induction l with
  | nil => exact fun s' _ => Says.refl P s'
  | cons e l ih =>
    intro s' hl
    refine Says.trans ?_ (ih _ (fun x hx => hl x (by simp [hx])))
    unfold autoEntry
    split
    next pat tg hp ht =>
      split
      · exact Says.refl P s'
      · split
        · exact Says.refl P s'
        · rename_i hm
          split
          · exact Says.refl P s'
          · rename_i hi
            split
            · exact Says.refl P s'
            · rename_i hr
              have hm' := (streamMatches_iff env name pat).mp (by simpa using hm)
              have hi' := (inhibited_iff env e name).mp (by simpa using hi)
              have hr' := (rulesHold_iff env _ e).mp (by simpa using hr)
              refine says_start env s' _ tg (by intro p _ _ pid st tg he; cases he) ?_
              intro pid pid' st' tg' heq
              simp only [Event.started.injEq] at heq
              obtain ⟨_, rfl, rfl⟩ := heq
              refine ⟨rfl, e, hl e (by simp), pat, hp, ht, hm', hi', hr', ?_⟩
              intro hn hs hc
              refine ⟨⟨pat, hp, by rw [hn]; exact hm'⟩, ht, by rw [hn]; exact hi', hr', ?_, ?_⟩
              · intro t h; rw [hs] at h; cases h
              · intro t h; rw [hc] at h; cases h
    next => exact Says.refl P s'

/-- C97: when a stream becomes active, all its automatic pushes without a scheduled time run afterwards, if their rules hold, they are
not inhibited and processes can be started. -/
theorem C97_became (env : Env) (s : State) (name pat tg : Bytes) (e : Entry) (he : e ∈ s.auto) (hp : e.stream = some pat)
    (ht : e.target = some tg) (hm : Meant env name pat) (hi : Free env name e) (hr : Allowed env (Text.sanitizeName name) e)
    (hs : e.schedule = none) (hw : Works env (Text.sanitizeName name) tg) :
    Covered env (step s (.became env name)) (Text.sanitizeName name) tg := by
  obtain ⟨pre, post, hl⟩ := List.append_of_mem he
  show Covered env (s.auto.foldl (autoEntry env name) s) (Text.sanitizeName name) tg
  rw [hl, List.foldl_append, List.foldl_cons]
  generalize pre.foldl (autoEntry env name) s = s1
  refine covered_keep (keep_autos env name post _) ?_
  have : autoEntry env name s1 e = startPush env s1 (Text.sanitizeName name) tg := by
    have hsk : skipTime env e = false := by rw [skipTime, hs]
    unfold autoEntry
    rw [hp, ht]
    simp only [hsk, (streamMatches_iff env name pat).mpr hm, (inhibited_iff env e name).mpr hi, (rulesHold_iff env _ e).mpr hr, Bool.not_true,
      Bool.false_eq_true, if_false]
  rw [this]
  exact (C97_start env s1 _ tg).2 hw

/-! ## Reports of the end of pushes -/

/-- C97: a check reports the end of exactly the listed pushes whose process ended, and afterwards lists none of these. -/
theorem C97_ended (env : Env) (s : State) :
    (∀ pid st, .ended pid st ∈ news s (step s (.check env)) ↔ ∃ p ∈ s.pushes, p.pid ∉ s.procs ∧ p.pid = pid ∧ p.stream = st) ∧
    ∀ p ∈ (step s (.check env)).pushes, p.pid ∈ (step s (.check env)).procs := by
  let R : State × Int → State × Int → Prop := fun a b =>
    (∀ x ∈ a.1.procs, x ∈ b.1.procs) ∧
    (∀ p ∈ b.1.pushes, p.pid ∉ b.1.procs → p ∈ a.1.pushes ∧ p.pid ∉ a.1.procs) ∧
    ∃ new, b.1.log = a.1.log ++ new ∧
      (∀ pid st, .ended pid st ∈ new → ∃ p ∈ a.1.pushes, p.pid ∉ a.1.procs ∧ p.pid = pid ∧ p.stream = st) ∧
      ∀ p ∈ a.1.pushes, p.pid ∉ a.1.procs → (p ∈ b.1.pushes ∧ p.pid ∉ b.1.procs) ∨ .ended p.pid p.stream ∈ new
  have hwipe : ∀ s' n, R (s', n) (wipe s', n) := by
    intro s' n
    refine ⟨fun _ h => h, ?_, _, rfl, ?_, ?_⟩
    · intro p hp hd
      exact absurd (mem_wipe.mp hp).2 hd
    · intro pid st hm
      simp only [List.mem_map, List.mem_filter, decide_eq_true_eq] at hm
      obtain ⟨p, ⟨hp, hd⟩, he⟩ := hm
      simp only [Event.ended.injEq] at he
      exact ⟨p, hp, hd, he.1, he.2⟩
    · intro p hp hd
      right
      simp only [List.mem_map, List.mem_filter, decide_eq_true_eq]
      exact ⟨p, ⟨hp, hd⟩, rfl⟩
  have htrans : ∀ a b c, R a b → R b c → R a c := by
    rintro a b c ⟨h1, h2, x, hx, hx1, hx2⟩ ⟨k1, k2, y, hy, hy1, hy2⟩
    refine ⟨fun z hz => k1 z (h1 z hz), fun p hp hd => h2 p (k2 p hp hd).1 (k2 p hp hd).2, x ++ y,
      by rw [hy, hx, List.append_assoc], ?_, ?_⟩
    · intro pid st hm
      rcases List.mem_append.mp hm with hm | hm
      · exact hx1 pid st hm
      · obtain ⟨p, hp, hd, e1, e2⟩ := hy1 pid st hm
        exact ⟨p, (h2 p hp hd).1, (h2 p hp hd).2, e1, e2⟩
    · intro p hp hd
      rcases hx2 p hp hd with ⟨hp', hd'⟩ | h
      · rcases hy2 p hp' hd' with h | h
        · exact .inl h
        · exact .inr (List.mem_append.mpr (.inr h))
      · exact .inr (List.mem_append.mpr (.inl h))
  have hlog : ∀ (s' t : State) n m (new : List Event), t.procs = s'.procs → t.pushes = s'.pushes → t.log = s'.log ++ new →
      (∀ pid st, .ended pid st ∉ new) → R (s', n) (t, m) := by
    intro s' t n m new hp hpu hl hno
    refine ⟨by rw [hp]; exact fun _ h => h, by rw [hp, hpu]; exact fun p h1 h2 => ⟨h1, h2⟩, new, hl, ?_, ?_⟩
    · intro pid st h; exact absurd h (hno pid st)
    · rw [hp, hpu]; exact fun p h1 h2 => .inl ⟨h1, h2⟩
  obtain ⟨m, hm⟩ := check_moves env s
  have hR : R (s, 0) (runPushCheck env s, m) := by
    refine hm.rel R (fun a => hlog _ _ _ _ [] rfl rfl (by simp) (by simp)) htrans ?_
    intro a b hmv
    cases hmv with
    | wipe s' n => exact hwipe s' n
    | signal s' n pat tg =>
      refine htrans _ ({ s' with
        log := s'.log ++ (s'.pushes.filter fun p => decide (p.pid ∈ s'.procs) && stops pat tg p).map fun p => .term p.pid }, n) _
        (hlog _ _ _ _ _ rfl rfl rfl ?_) (hwipe _ n)
      intro pid st h
      obtain ⟨p, _, he⟩ := List.mem_map.mp h
      cases he
    | wait s' n e name tg k he ht => exact hlog _ _ _ _ [] rfl rfl (by simp [setWaiting]) (by simp)
    | remove s' n e pat he hp hs hc => exact hlog _ _ _ _ [] rfl rfl (by simp) (by simp)
    | drop s' n e he hel => exact hlog _ _ _ _ [] rfl rfl (by simp) (by simp)
    | start s' n e pat tg name he hp ht hel hc hn hi hsp =>
      have hid : ∀ n m, R (s', n) (s', m) := fun n m => hlog _ _ n m [] rfl rfl (by simp) (by simp)
      rcases startPush_cases env s' name tg with ⟨h', _⟩ | ⟨_, ⟨h', _⟩ | ⟨pid, t, hf, h'⟩⟩
      · rw [h']; exact hid n (n + 1)
      · rw [h']; exact htrans _ _ _ (hid n (n + 1)) (hwipe s' (n + 1))
      · rw [h']
        obtain ⟨w1, w2, x, hx, hx1, hx2⟩ := hwipe s' n
        refine ⟨fun z hz => by simp [hz], ?_, x ++ [.started pid name tg], by dsimp only at hx ⊢; rw [hx, List.append_assoc], ?_, ?_⟩
        · intro p hp hd
          rcases mem_put.mp hp with rfl | ⟨hp, _⟩
          · exact absurd (by simp) hd
          · exact absurd (List.mem_cons_of_mem _ (mem_wipe.mp hp).2) hd
        · intro q st hq
          rcases List.mem_append.mp hq with hq | hq
          · exact hx1 q st hq
          · simp at hq
        · intro p hp hd
          rcases hx2 p hp hd with ⟨h1, _⟩ | h
          · exact absurd (mem_wipe.mp h1).2 hd
          · exact .inr (List.mem_append.mpr (.inl h))
  have hlast : ∀ p ∈ (runPushCheck env s).pushes, p.pid ∈ (runPushCheck env s).procs := fun p hp => (mem_wipe.mp hp).2
  obtain ⟨_, _, new, hn, h1, h2⟩ := hR
  have hnews : news s (step s (.check env)) = new := by
    show ((runPushCheck env s).log).drop s.log.length = new
    dsimp only at hn
    rw [hn, List.drop_left]
  refine ⟨?_, hlast⟩
  intro pid st
  rw [hnews]
  constructor
  · exact h1 pid st
  · rintro ⟨p, hp, hd, rfl, rfl⟩
    rcases h2 p hp hd with ⟨hp', hd'⟩ | h
    · exact absurd (hlast p hp') hd'
    · exact h

end Verif.AutoPush
