import Verif.AutoPush.Spec

/-!
# Lemmas about automatic pushes
-/
namespace Verif.AutoPush
open Spec

/-! ## Conditions -/

theorem text_nil : text [] = [] := rfl

theorem text_zero (s : Bytes) : text (0 :: s) = [] := by simp [text]

theorem text_cons {a : UInt8} (h : a ≠ 0) (s : Bytes) : text (a :: s) = a :: text s := by
  simp [text, h]

theorem strcmp_neg : ∀ a b : Bytes, strcmp a b < 0 ↔ text a < text b
  | [], [] => by simp [strcmp, text]
  | [], b :: t => by
    rw [strcmp]
    by_cases h : b = 0
    · subst h; simp [text]
    · rw [if_neg h, text_cons h]; simp [text]
  | a :: s, [] => by
    rw [strcmp]
    by_cases h : a = 0
    · subst h; simp [text]
    · rw [if_neg h, text_cons h]; simp [text]
  | a :: s, b :: t => by
    rw [strcmp]
    by_cases h1 : a < b
    · rw [if_pos h1]
      have hb : b ≠ 0 := by rintro rfl; exact absurd h1 (by simp)
      rw [text_cons hb]
      by_cases ha : a = 0
      · subst ha; simp [text]
      · rw [text_cons ha]; simp [List.cons_lt_cons_iff, h1]
    · rw [if_neg h1]
      by_cases h2 : b < a
      · rw [if_pos h2]
        have ha : a ≠ 0 := by rintro rfl; exact absurd h2 (by simp)
        rw [text_cons ha]
        by_cases hb : b = 0
        · subst hb; simp [text]
        · rw [text_cons hb]
          simp only [List.cons_lt_cons_iff, h1, false_or]
          constructor
          · intro h; omega
          · rintro ⟨rfl, _⟩; exact absurd h2 (UInt8.lt_irrefl _)
      · rw [if_neg h2]
        have hab : a = b := UInt8.le_antisymm (UInt8.not_lt.mp h2) (UInt8.not_lt.mp h1)
        subst hab
        by_cases ha : a = 0
        · subst ha; simp [text]
        · rw [if_neg ha, strcmp_neg s t, text_cons ha, text_cons ha]
          simp [List.cons_lt_cons_iff]

theorem strcmp_swap : ∀ a b : Bytes, strcmp b a = - strcmp a b
  | [], [] => by simp [strcmp]
  | [], b :: t => by
    rw [strcmp, strcmp]; by_cases h : b = 0 <;> simp [h]
  | a :: s, [] => by
    rw [strcmp, strcmp]; by_cases h : a = 0 <;> simp [h]
  | a :: s, b :: t => by
    rw [strcmp, strcmp]
    by_cases h1 : a < b
    · have h2 : ¬ b < a := UInt8.not_lt.mpr (UInt8.le_of_lt h1)
      simp [h1, h2]
    · by_cases h2 : b < a
      · simp [h1, h2]
      · have hab : a = b := UInt8.le_antisymm (UInt8.not_lt.mp h2) (UInt8.not_lt.mp h1)
        subst hab
        rw [if_neg h1, if_neg h1, strcmp_swap s t]
        by_cases ha : a = 0 <;> simp [ha]

theorem strcmp_pos (a b : Bytes) : strcmp a b > 0 ↔ text b < text a := by
  rw [← strcmp_neg, strcmp_swap a b]; omega

theorem prefix_take {w l : Bytes} {n : Nat} (h : w.length ≤ n) : w <+: l.take n ↔ w <+: l := by
  constructor
  · exact fun h => h.trans (List.take_prefix n l)
  · exact fun hw => List.prefix_take_iff.mpr ⟨hw, h⟩

theorem eq_take {w l : Bytes} {n : Nat} (h : w.length = n) : l.take n = w ↔ w <+: l := by
  constructor
  · rintro rfl; exact List.take_prefix n l
  · rintro ⟨r, rfl⟩; subst h; simp

theorem stringToBool_iff (s : Bytes) : stringToBool s = true ↔ Yes s := by
  unfold stringToBool Yes
  simp only [List.map_take, Bool.or_eq_true, List.isPrefixOf_iff_prefix, beq_iff_eq]
  rw [prefix_take (by decide), prefix_take (by decide), eq_take (by decide), eq_take (by decide)]
  simp only [List.mem_cons, List.not_mem_nil, or_false, exists_eq_or_imp, exists_eq_left, or_assoc]

theorem checkInt_other {cur val : Int} {op : Nat} (h : op ≠ 10 ∧ op ≠ 11 ∧ op ≠ 12 ∧ op ≠ 13) : checkInt cur op val = false := by
  simp [checkInt, h]

theorem checkStr_other {cur val : Bytes} {op : Nat} (h : op ≠ 20 ∧ op ≠ 21 ∧ op ≠ 22 ∧ op ≠ 23) : checkStr cur op val = false := by
  simp [checkStr, h]

theorem checkCondition_iff (cur : Bytes) (op : Nat) (val : Bytes) : checkCondition cur op val = true ↔ Compare cur op val := by
  unfold Compare
  split
  · simp [checkCondition, stringToBool_iff]
  · simp [checkCondition, ← stringToBool_iff]
  · simp [checkCondition]
  · simp [checkCondition]
  · simp [checkCondition, checkInt]
  · simp [checkCondition, checkInt]
  · simp [checkCondition, checkInt]
  · simp [checkCondition, checkInt]
  · simp only [checkCondition, checkStr]
    simp [← strcmp_pos]
  · simp only [checkCondition, checkStr]
    simp [← strcmp_neg]
  · simp only [checkCondition, checkStr]
    simp [← strcmp_neg]
  · simp only [checkCondition, checkStr]
    simp [← strcmp_pos]
  · rename_i h0 h1 h2 h3 h10 h11 h12 h13 h20 h21 h22 h23
    rw [checkCondition, if_neg h0, if_neg h1, if_neg h2, if_neg h3]
    split
    · rw [checkInt_other ⟨h10, h11, h12, h13⟩]; simp
    · rw [checkStr_other ⟨h20, h21, h22, h23⟩]; simp

/-! ## Matching and rules -/

theorem streamMatches_iff (env : Env) (stream pat : Bytes) : streamMatches env stream pat = true ↔ Meant env stream pat := by
  unfold streamMatches Meant
  by_cases h1 : stream = pat
  · simp [h1]
  · rw [if_neg h1]
    by_cases h2 : pat.getLast? = some 0x2B ∧ stream.take pat.length = pat
    · rw [if_pos h2]
      simp only [h1, false_or, true_iff]
      left
      obtain ⟨base, hb⟩ := List.getLast?_eq_some_iff.mp h2.1
      refine ⟨base, stream.drop pat.length, hb, ?_⟩
      conv => lhs; rw [← List.take_append_drop pat.length stream, h2.2]
    · rw [if_neg h2]
      have hn : ¬ ∃ base rest, pat = base ++ [0x2B] ∧ stream = pat ++ rest := by
        rintro ⟨base, rest, hb, hs⟩
        apply h2
        refine ⟨by rw [hb]; simp, by rw [hs]; simp⟩
      simp only [h1, hn, false_or]
      split
      next tag => simp
      next hx =>
        simp only [Bool.false_eq_true, false_iff]
        rintro ⟨tag, rfl, _⟩
        exact hx tag rfl

theorem checkPushRule_iff (env : Env) (stream : Bytes) (r : Option Rule) :
    checkPushRule env stream r = true ↔ RuleHolds env stream r := by
  cases r with
  | none => simp [checkPushRule, RuleHolds]
  | some q =>
    simp only [checkPushRule, RuleHolds, Option.some.injEq, exists_eq_left', ← checkCondition_iff]
    by_cases h : (env.expand stream (0x24 :: q.name)).2 = true
    · rw [h]
      by_cases hv : q.value = []
      · simp [hv]
      · simp [hv]
    · have h' : (env.expand stream (0x24 :: q.name)).2 = false := by simpa using h
      rw [h']; simp

theorem rulesHold_iff (env : Env) (stream : Bytes) (e : Entry) : rulesHold env stream e = true ↔ Allowed env stream e := by
  unfold rulesHold Allowed
  cases he : e.endRule with
  | none =>
    cases hs : e.startRule with
    | none => simp
    | some r => simp [checkPushRule_iff]
  | some q =>
    by_cases hq : checkPushRule env stream q = true
    · simp only [hq, if_true, Bool.false_eq_true, false_iff, not_and]
      intro h
      exact absurd ((checkPushRule_iff ..).mp hq) (h q rfl)
    · have hq' : ¬ RuleHolds env stream q := fun h => hq ((checkPushRule_iff ..).mpr h)
      cases hs : e.startRule with
      | none => simp [hq, hq']
      | some r => simp [hq, hq', checkPushRule_iff]

theorem inhibited_iff (env : Env) (e : Entry) (stream : Bytes) : inhibited env e stream = false ↔ Free env stream e := by
  unfold inhibited Free
  rw [Bool.eq_false_iff, ne_eq, List.any_eq_true]
  simp only [streamMatches_iff, not_exists, not_and]

/-! ## The list of pushes -/

theorem mem_put {p q : Push} {l : List Push} : q ∈ put p l ↔ q = p ∨ (q ∈ l ∧ q.pid ≠ p.pid) := by
  unfold put
  simp only [List.mem_append, List.mem_filter, List.mem_cons, decide_eq_true_eq]
  constructor
  · rintro (h | h | h)
    · exact .inr ⟨h.1, by omega⟩
    · exact .inl h
    · exact .inr ⟨h.1, by omega⟩
  · rintro (h | ⟨h, hp⟩)
    · exact .inr (.inl h)
    · rcases Nat.lt_or_gt_of_ne hp with h' | h'
      · exact .inl ⟨h, h'⟩
      · exact .inr (.inr ⟨h, h'⟩)

theorem mem_wipe {s : State} {p : Push} : p ∈ (wipe s).pushes ↔ p ∈ s.pushes ∧ p.pid ∈ s.procs := by
  simp [wipe]

theorem active_true {env : Env} {s : State} {st tg : Bytes} (h : (isPushActive env s st tg).1 = true) :
    (∃ p ∈ s.pushes, p.pid ∈ s.procs ∧ same env st tg p = true) ∧ (isPushActive env s st tg).2 = s := by
  unfold isPushActive at h ⊢
  split at h
  next ha =>
    rw [if_pos ha]
    simp only [List.any_eq_true, Bool.and_eq_true, decide_eq_true_eq] at ha
    exact ⟨ha, rfl⟩
  next ha => simp at h

theorem active_false {env : Env} {s : State} {st tg : Bytes} (h : (isPushActive env s st tg).1 ≠ true) :
    (¬ ∃ p ∈ s.pushes, p.pid ∈ s.procs ∧ same env st tg p = true) ∧ (isPushActive env s st tg).2 = wipe s := by
  unfold isPushActive at h ⊢
  split at h
  next ha => simp at h
  next ha =>
    rw [if_neg ha]
    simp only [List.any_eq_true, Bool.and_eq_true, decide_eq_true_eq] at ha
    exact ⟨ha, rfl⟩

/-- What starting a push does: nothing but cleaning up, or a new process. -/
theorem startPush_cases (env : Env) (s : State) (st tg : Bytes) :
    (startPush env s st tg = s ∧ ∃ p ∈ s.pushes, p.pid ∈ s.procs ∧ same env st tg p = true) ∨
    ((¬ ∃ p ∈ s.pushes, p.pid ∈ s.procs ∧ same env st tg p = true) ∧
      ((startPush env s st tg = wipe s ∧ ∀ pid t, env.spawn s.procs st tg = some (pid, t) → pid = 0 ∨ pid ∈ s.procs) ∨
       ∃ pid t, pid ∉ s.procs ∧ startPush env s st tg = { wipe s with
        pushes := put ⟨pid, st, tg, t⟩ (wipe s).pushes
        procs := pid :: s.procs
        log := (wipe s).log ++ [.started pid st tg] })) := by
  by_cases h : (isPushActive env s st tg).1 = true
  · obtain ⟨hp, hs⟩ := active_true h
    left
    refine ⟨?_, hp⟩
    unfold startPush
    rw [if_pos h, hs]
  · obtain ⟨hp, hs⟩ := active_false h
    right
    refine ⟨hp, ?_⟩
    have hproc : (wipe s).procs = s.procs := rfl
    unfold startPush
    rw [if_neg h, hs, hproc]
    cases hsp : env.spawn s.procs st tg with
    | none => left; exact ⟨rfl, by simp⟩
    | some r =>
      obtain ⟨pid, t⟩ := r
      by_cases hc : pid = 0 ∨ pid ∈ s.procs
      · left
        refine ⟨by simp only [hc, if_true], ?_⟩
        intro a b hab
        simp only [Option.some.injEq, Prod.mk.injEq] at hab
        rw [← hab.1]; exact hc
      · right
        refine ⟨pid, t, fun h => hc (.inr h), ?_⟩
        simp only [hc, if_false]

/-! ## The steps of a check -/

/-- One elementary step of a check of the entries `es`. -/
inductive Move (env : Env) (es : List Entry) : State × Int → State × Int → Prop where
  | wipe (s : State) (n : Int) : Move env es (s, n) (wipe s, n)
  | signal (s : State) (n : Int) (pat tg : Bytes) (e : Entry) (he : e ∈ es) (hp : e.stream = some pat) (ht : e.target = some tg)
    (hw : elapsed env e = true ∨ checkPush env pat e = false) : Move env es (s, n) (stopActivePushes s pat tg, n)
  | wait (s : State) (n : Int) (e : Entry) (name tg : Bytes) (k : Nat) (he : e ∈ es) (ht : e.target = some tg) :
    Move env es (s, n) (setWaiting s name tg k, n)
  | start (s : State) (n : Int) (e : Entry) (pat tg name : Bytes) (he : e ∈ es) (hp : e.stream = some pat) (ht : e.target = some tg)
    (hel : elapsed env e = false) (hc : checkPush env pat e = true) (hn : name ∈ getActiveStreams env pat)
    (hi : inhibited env e name = false) (hs : n < s.speed ∨ s.speed = 0) : Move env es (s, n) (startPush env s name tg, n + 1)
  | remove (s : State) (n : Int) (e : Entry) (pat : Bytes) (he : e ∈ es) (hp : e.stream = some pat) (hs : e.schedule.isSome = true)
    (hc : checkPush env pat e = true) :
    Move env es (s, n) ({ s with auto := removeSpec s.auto e }, n)
  | drop (s : State) (n : Int) (e : Entry) (he : e ∈ es) (hel : elapsed env e = true) :
    Move env es (s, n) ({ s with auto := removeName s.auto e.key }, n)

/-- Any number of steps. -/
inductive Moves (env : Env) (es : List Entry) : State × Int → State × Int → Prop where
  | refl (a : State × Int) : Moves env es a a
  | tail {a b c : State × Int} : Moves env es a b → Move env es b c → Moves env es a c

theorem Moves.trans {env : Env} {es : List Entry} {a b c : State × Int} (h : Moves env es a b) (h' : Moves env es b c) :
    Moves env es a c := by
  induction h' with
  | refl => exact h
  | tail _ hm ih => exact .tail ih hm

theorem Moves.one {env : Env} {es : List Entry} {a b : State × Int} (h : Move env es a b) : Moves env es a b := .tail (.refl a) h

/-- A relation that holds along steps. -/
theorem Moves.rel {env : Env} {es : List Entry} (R : State × Int → State × Int → Prop) (hr : ∀ a, R a a)
    (ht : ∀ a b c, R a b → R b c → R a c) (hm : ∀ a b, Move env es a b → R a b) {a b : State × Int} (h : Moves env es a b) : R a b := by
  induction h with
  | refl => exact hr _
  | tail _ hmv ih => exact ht _ _ _ ih (hm _ _ hmv)

theorem Moves.mono {env : Env} {es es' : List Entry} (hsub : ∀ e ∈ es, e ∈ es') {a b : State × Int} (h : Moves env es a b) :
    Moves env es' a b := by
  refine Moves.rel (es := es) (Moves env es') .refl (fun _ _ _ => Moves.trans) ?_ h
  intro a b hm
  apply Moves.one
  cases hm with
  | wipe s n => exact .wipe s n
  | signal s n pat tg e he hp ht hw => exact .signal s n pat tg e (hsub e he) hp ht hw
  | wait s n e name tg k he ht => exact .wait s n e name tg k (hsub e he) ht
  | start s n e pat tg name he hp ht hel hc hn hi hs => exact .start s n e pat tg name (hsub e he) hp ht hel hc hn hi hs
  | remove s n e pat he hp hs hc => exact .remove s n e pat (hsub e he) hp hs hc
  | drop s n e he hel => exact .drop s n e (hsub e he) hel

theorem active_moves (env : Env) (es : List Entry) (s : State) (n : Int) (st tg : Bytes) :
    Moves env es (s, n) ((isPushActive env s st tg).2, n) := by
  by_cases h : (isPushActive env s st tg).1 = true
  · rw [(active_true h).2]; exact .refl _
  · rw [(active_false h).2]; exact .one (.wipe s n)

theorem startAll_moves (env : Env) (es : List Entry) (e : Entry) (pat tg : Bytes) (he : e ∈ es) (hp : e.stream = some pat)
    (ht : e.target = some tg) (hel : elapsed env e = false) (hc : checkPush env pat e = true) :
    ∀ (names : List Bytes) (s : State) (n : Int), (∀ x ∈ names, x ∈ getActiveStreams env pat) →
      Moves env es (s, n) (startAll env e tg names s n)
  | [], s, n, _ => .refl _
  | name :: rest, s, n, hn => by
    have hrest : ∀ x ∈ rest, x ∈ getActiveStreams env pat := fun x hx => hn x (by simp [hx])
    have ih := fun s n => startAll_moves env es e pat tg he hp ht hel hc rest s n hrest
    have h0 := active_moves env es s n name tg
    rw [startAll]
    by_cases ha : (isPushActive env s name tg).1 = true
    · rw [if_pos ha]; exact h0.trans (ih _ _)
    · rw [if_neg ha]
      have h1 := h0.trans (.one (.wait _ n e name tg (((isPushActive env s name tg).2.waiting name tg + 1) % 2 ^ 32) he ht))
      revert h1
      generalize hs1 : setWaiting (isPushActive env s name tg).2 name tg (((isPushActive env s name tg).2.waiting name tg + 1) % 2 ^ 32)
        = s1
      intro h1
      dsimp only
      rw [hs1]
      split
      next hcond =>
        have h2 := h1.trans (.one (.wait s1 n e name tg 0 he ht))
        split
        next hi => exact h2.trans (ih _ _)
        next hi =>
          have hi' : inhibited env e name = false := by simpa using hi
          have h3 := h2.trans (.one (.start (setWaiting s1 name tg 0) n e pat tg name he hp ht hel hc (hn name (by simp)) hi' hcond.2))
          split
          next hone => exact h3.trans (.one (.remove _ _ e pat he hp hone.1 hc))
          next => exact h3.trans (ih _ _)
      next => exact h1.trans (ih _ _)

theorem checkEntry_moves (env : Env) (es : List Entry) (e : Entry) (pat tg : Bytes) (he : e ∈ es) (hp : e.stream = some pat)
    (ht : e.target = some tg) (hel : elapsed env e = false) (s : State) (n : Int) :
    Moves env es (s, n) (checkEntry env e pat tg s n) := by
  have h0 := active_moves env es s n pat tg
  unfold checkEntry
  by_cases hc : checkPush env pat e = true
  · simp only [hc, Bool.not_true, Bool.false_eq_true, if_false]
    split
    · exact h0
    · split
      · exact h0.trans (startAll_moves env es e pat tg he hp ht hel hc _ _ _ (fun x h => h))
      · exact h0
  · have hc' : checkPush env pat e = false := by simpa using hc
    simp only [hc', Bool.not_false, if_true]
    split
    · exact h0.trans (.one (.signal _ n pat tg e he hp ht (.inr hc')))
    · exact h0

theorem checkAll_moves (env : Env) : ∀ (es : List Entry) (s : State) (n : Int), ∃ m, Moves env es (s, n) (checkAll env es s n, m)
  | [], s, n => ⟨n, .refl _⟩
  | e :: rest, s, n => by
    have ih := fun s n => checkAll_moves env rest s n
    have up : ∀ {a b}, Moves env rest a b → Moves env (e :: rest) a b := fun h => h.mono (fun x hx => by simp [hx])
    rw [checkAll]
    split
    next hin =>
      split
      next pat tg hp ht =>
        by_cases hel : elapsed env e = true
        · rw [if_pos hel]
          exact ⟨n, (Moves.one (.signal s n pat tg e (by simp) hp ht (.inl hel))).trans (.one (.drop _ n e (by simp) hel))⟩
        · rw [if_neg hel]
          have h0 := checkEntry_moves env (e :: rest) e pat tg (by simp) hp ht (by simpa using hel) s n
          obtain ⟨m, hm⟩ := ih (checkEntry env e pat tg s n).1 (checkEntry env e pat tg s n).2
          exact ⟨m, h0.trans (up hm)⟩
      next => obtain ⟨m, hm⟩ := ih s n; exact ⟨m, up hm⟩
    next => obtain ⟨m, hm⟩ := ih s n; exact ⟨m, up hm⟩

theorem check_moves (env : Env) (s : State) : ∃ m, Moves env s.auto (s, 0) (runPushCheck env s, m) := by
  obtain ⟨m, hm⟩ := checkAll_moves env s.auto s 0
  exact ⟨m, hm.trans (.one (.wipe _ m))⟩

/-- The walk up to an entry, when no end time passed before it. -/
theorem checkAll_append (env : Env) : ∀ (pre post : List Entry) (s : State) (n : Int), (∀ e ∈ pre, elapsed env e = false) →
    ∃ s' n', checkAll env (pre ++ post) s n = checkAll env post s' n' ∧ Moves env pre (s, n) (s', n')
  | [], post, s, n, _ => ⟨s, n, rfl, .refl _⟩
  | e :: pre, post, s, n, h => by
    have ih := fun s n => checkAll_append env pre post s n (fun x hx => h x (by simp [hx]))
    have up : ∀ {a b}, Moves env pre a b → Moves env (e :: pre) a b := fun h => h.mono (fun x hx => by simp [hx])
    rw [List.cons_append, checkAll]
    split
    next hin =>
      split
      next pat tg hp ht =>
        have hel : elapsed env e = false := h e (by simp)
        rw [if_neg (by simp [hel])]
        have h0 := checkEntry_moves env (e :: pre) e pat tg (by simp) hp ht hel s n
        obtain ⟨s', n', he, hm⟩ := ih (checkEntry env e pat tg s n).1 (checkEntry env e pat tg s n).2
        exact ⟨s', n', he, h0.trans (up hm)⟩
      next => obtain ⟨s', n', he, hm⟩ := ih s n; exact ⟨s', n', he, up hm⟩
    next => obtain ⟨s', n', he, hm⟩ := ih s n; exact ⟨s', n', he, up hm⟩

end Verif.AutoPush
