import Verif.Conn.Lemmas

namespace Verif.Conn
open Verif Verif.Json

/-! ## The second loop -/

theorem removeLoop_perm (keep : Bytes → Bool) (n : Nat) (done rest : List (Bytes × Nat)) :
    ((removeLoop keep n done rest).1 ++ (removeLoop keep n done rest).2).Perm (done ++ rest) := by
  induction n generalizing done rest with
  | zero => simp [removeLoop]
  | succ n ih =>
    rw [removeLoop]
    have hs : rest.takeWhile (fun e => keep e.1) ++ rest.dropWhile (fun e => keep e.1) = rest := List.takeWhile_append_dropWhile
    cases hd : rest.dropWhile (fun e => keep e.1) with
    | nil => simp
    | cons e after =>
      rw [hd] at hs
      simp only []
      have hp : (e :: (done ++ rest.takeWhile (fun e => keep e.1) ++ after)).Perm (done ++ rest) := by
        conv => rhs; rw [← hs]
        rw [← List.append_assoc]
        exact List.perm_middle.symm
      cases hc : done ++ rest.takeWhile (fun e => keep e.1) ++ after with
      | nil => rw [hc] at hp; simpa using hp
      | cons f l =>
        rw [hc] at hp
        simp only []
        refine List.Perm.trans List.perm_middle (List.Perm.trans (List.Perm.cons _ (ih [f] l)) ?_)
        exact hp

theorem removeLoop_bad (keep : Bytes → Bool) (n : Nat) (done rest : List (Bytes × Nat)) : ∀ e ∈ (removeLoop keep n done rest).2, keep e.1 = false := by
  induction n generalizing done rest with
  | zero => simp [removeLoop]
  | succ n ih =>
    rw [removeLoop]
    cases hd : rest.dropWhile (fun e => keep e.1) with
    | nil => simp
    | cons e after =>
      have hk : keep e.1 = false := by
        have := List.head_dropWhile_not (fun e : Bytes × Nat => keep e.1) (l := rest) (by rw [hd]; simp)
        simpa [hd] using this
      simp only []
      split
      · intro x hx; rcases List.mem_singleton.1 hx with rfl; exact hk
      · intro x hx
        rcases List.mem_cons.1 hx with rfl | hx
        · exact hk
        · exact ih _ _ x hx

theorem dropWhile_nil_all {l : List (Bytes × Nat)} {keep : Bytes → Bool} (h : l.dropWhile (fun e => keep e.1) = []) : ∀ e ∈ l, keep e.1 = true := by
  induction l with
  | nil => intro e he; cases he
  | cons x l ih =>
    rw [List.dropWhile_cons] at h
    split at h
    · next hx =>
      intro e he
      rcases List.mem_cons.1 he with rfl | he
      · exact hx
      · exact ih h e he
    · cases h

theorem all_dropWhile_nil {l : List (Bytes × Nat)} {keep : Bytes → Bool} (h : ∀ e ∈ l, keep e.1 = true) : l.dropWhile (fun e => keep e.1) = [] := by
  induction l with
  | nil => rfl
  | cons x l ih => rw [List.dropWhile_cons, if_pos (h x (by simp))]; exact ih (fun e he => h e (by simp [he]))

theorem filter_bad_nil {l : List (Bytes × Nat)} {keep : Bytes → Bool} (h : ∀ e ∈ l, keep e.1 = true) : l.filter (fun e => !keep e.1) = [] := by
  rw [List.filter_eq_nil_iff]; intro e he; simp [h e he]

theorem removeLoop_one (keep : Bytes → Bool) (n : Nat) (done rest : List (Bytes × Nat)) (hn : done.length + rest.length ≤ n) (hd1 : done.length ≤ 1) :
    ((removeLoop keep n done rest).1.filter (fun e => !keep e.1)).length ≤ 1 := by
  induction n generalizing done rest with
  | zero =>
    have h1 : done = [] := List.eq_nil_of_length_eq_zero (by omega)
    have h2 : rest = [] := List.eq_nil_of_length_eq_zero (by omega)
    subst h1; subst h2; simp [removeLoop]
  | succ n ih =>
    rw [removeLoop]
    have hs : rest.takeWhile (fun e => keep e.1) ++ rest.dropWhile (fun e => keep e.1) = rest := List.takeWhile_append_dropWhile
    cases hd : rest.dropWhile (fun e => keep e.1) with
    | nil =>
      simp only [List.filter_append, filter_bad_nil (dropWhile_nil_all hd), List.append_nil]
      have := List.length_filter_le (fun e : Bytes × Nat => !keep e.1) done
      omega
    | cons e after =>
      rw [hd] at hs
      have hlen := congrArg List.length hs
      simp only [List.length_append, List.length_cons] at hlen
      simp only []
      cases hc : done ++ rest.takeWhile (fun e => keep e.1) ++ after with
      | nil => simp
      | cons f l =>
        have := congrArg List.length hc
        simp only [List.length_append, List.length_cons] at this
        exact ih [f] l (by simp; omega) (by simp)

theorem removeLoop_good (keep : Bytes → Bool) (n : Nat) (done rest : List (Bytes × Nat)) (h : ∀ e ∈ done ++ rest, keep e.1 = true) :
    removeLoop keep n done rest = (done ++ rest, []) := by
  cases n with
  | zero => rfl
  | succ n => rw [removeLoop, all_dropWhile_nil (fun e he => h e (by simp [he]))]

theorem removeLoop_last (keep : Bytes → Bool) (cur : List (Bytes × Nat)) (h : (cur.filter (fun e => !keep e.1)).length ≤ 1) :
    ∀ e ∈ (removeLoop keep cur.length [] cur).1, keep e.1 = true := by
  cases hn : cur.length with
  | zero => have := List.eq_nil_of_length_eq_zero hn; subst this; simp [removeLoop]
  | succ n =>
    rw [removeLoop]
    have hs : cur.takeWhile (fun e => keep e.1) ++ cur.dropWhile (fun e => keep e.1) = cur := List.takeWhile_append_dropWhile
    cases hd : cur.dropWhile (fun e => keep e.1) with
    | nil => simpa using dropWhile_nil_all hd
    | cons e after =>
      have hk : keep e.1 = false := by
        have := List.head_dropWhile_not (fun e : Bytes × Nat => keep e.1) (l := cur) (by rw [hd]; simp)
        simpa [hd] using this
      rw [hd] at hs
      have ht : ∀ x ∈ cur.takeWhile (fun e => keep e.1), keep x.1 = true := by
        have := List.all_takeWhile (p := fun e : Bytes × Nat => keep e.1) (l := cur)
        rw [List.all_eq_true] at this; exact this
      have ha : ∀ x ∈ after, keep x.1 = true := by
        rw [← hs, List.filter_append, filter_bad_nil ht, List.filter_cons] at h
        simp only [hk, Bool.not_false, if_true, List.nil_append, List.length_cons] at h
        have h0 := List.eq_nil_of_length_eq_zero (l := after.filter fun e => !keep e.1) (by omega)
        rw [List.filter_eq_nil_iff] at h0
        intro x hx; have := h0 x hx; simpa using this
      simp only [List.nil_append]
      cases hc : cur.takeWhile (fun e => keep e.1) ++ after with
      | nil => simp
      | cons f l =>
        simp only []
        have hall : ∀ x ∈ [f] ++ l, keep x.1 = true := by
          intro x hx
          have : x ∈ cur.takeWhile (fun e => keep e.1) ++ after := by rw [hc]; simpa using hx
          rcases List.mem_append.1 this with h1 | h1
          · exact ht x h1
          · exact ha x h1
        rw [removeLoop_good keep n [f] l hall]
        exact hall

/-! ## The invariant -/

/-- What holds of the table and the processes. -/
structure Core (cur : List (Bytes × Nat)) (alive : List Proc) : Prop where
  map : Map cur
  nodup : (alive.map (·.pid)).Nodup
  recd : ∀ q ∈ alive, (q.text, q.pid) ∈ cur

/-- What holds of all reachable states. -/
structure Inv (s : State) : Prop where
  core : Core s.current s.alive
  page : s.hung = false → Core s.page s.alive

theorem Core.runs {s : State} (h : Core s.current s.alive) (t : Bytes) : runs s t = true ↔ Runs s t := by
  unfold Conn.runs Runs
  constructor
  · intro hr
    cases hp : pidOf s.current t with
    | none => rw [hp] at hr; cases hr
    | some p =>
      rw [hp] at hr
      simp only [isActive, List.any_eq_true, decide_eq_true_eq] at hr
      obtain ⟨q, hq, hqp⟩ := hr
      have h1 := h.recd q hq
      rw [hqp] at h1
      exact ⟨q, hq, h.map.inj _ _ _ h1 (pidOf_some hp)⟩
  · rintro ⟨q, hq, rfl⟩
    have h1 := h.recd q hq
    obtain ⟨p, hp⟩ := pidOf_mem h1
    rw [hp]
    simp only [isActive, List.any_eq_true, decide_eq_true_eq]
    exact ⟨q, hq, h.map.fn _ _ _ h1 (pidOf_some hp)⟩

theorem Core.sub {cur : List (Bytes × Nat)} {alive alive' : List Proc} (h : Core cur alive) (hs : alive'.Sublist alive) : Core cur alive' where
  map := h.map
  nodup := h.nodup.sublist (hs.map _)
  recd := fun q hq => h.recd q (hs.subset hq)

theorem Core.text {cur : List (Bytes × Nat)} {alive : List Proc} (h : Core cur alive) : (alive.map (·.text)).Nodup := by
  have h1 := h.nodup
  have h2 : ∀ q ∈ alive, ∀ r ∈ alive, q.text = r.text → q.pid = r.pid := by
    intro q hq r hr e
    have := h.recd q hq
    rw [e] at this
    exact h.map.fn _ _ _ this (h.recd r hr)
  clear h
  induction alive with
  | nil => simp
  | cons x l ih =>
    simp only [List.map_cons, List.nodup_cons] at h1 ⊢
    refine ⟨?_, ih h1.2 (fun q hq r hr => h2 q (by simp [hq]) r (by simp [hr]))⟩
    intro hm
    obtain ⟨y, hy, he⟩ := List.mem_map.1 hm
    exact h1.1 (List.mem_map.2 ⟨y, hy, h2 y (by simp [hy]) x (by simp) he⟩)

/-- The second loop leaves the table right, and stops only what is not wanted. -/
theorem removed_core {s : State} (h : Core s.current s.alive) (want : List Bytes) : Core (removed s want).current (removed s want).alive where
  map := by
    apply h.map.sub
    intro e he
    have := (removeLoop_perm (fun t => decide (t ∈ want)) s.current.length [] s.current).subset (List.mem_append.2 (Or.inl he))
    simpa using this
  nodup := h.nodup.sublist ((List.filter_sublist).map _)
  recd := by
    intro q hq
    simp only [removed, List.mem_filter, decide_eq_true_eq] at hq
    have h1 := h.recd q hq.1
    have h2 := (removeLoop_perm (fun t => decide (t ∈ want)) s.current.length [] s.current).symm.subset (by simpa using h1)
    rcases List.mem_append.1 h2 with h3 | h3
    · exact h3
    · exact absurd (List.mem_map.2 ⟨_, h3, rfl⟩) hq.2

theorem removed_keeps {s : State} (h : Core s.current s.alive) (want : List Bytes) (q : Proc) (hq : q ∈ s.alive) (hw : q.text ∈ want) : q ∈ (removed s want).alive := by
  simp only [removed, List.mem_filter, decide_eq_true_eq]
  refine ⟨hq, ?_⟩
  intro hm
  obtain ⟨e, he, hp⟩ := List.mem_map.1 hm
  have h1 := removeLoop_bad (fun t => decide (t ∈ want)) _ _ _ e he
  have h2 := (removeLoop_perm (fun t => decide (t ∈ want)) s.current.length [] s.current).subset (List.mem_append.2 (Or.inr he))
  simp only [List.nil_append] at h2
  have h3 := h.recd q hq
  obtain ⟨a, b⟩ := e
  simp only at hp h1
  subst hp
  have := h.map.inj _ _ _ h2 h3
  subst this
  simp [hw] at h1

/-! ## The third loop -/

/-- The new numbers, as far as the table goes. -/
def Free (cur : List (Bytes × Nat)) (alive : List Proc) (fork : Bytes → Option Nat) (l : List Bytes) : Prop :=
  (∀ t ∈ l, ∀ p, fork t = some p → p ∉ alive.map (·.pid) ∧ p ∉ cur.map (·.2)) ∧ ∀ t t' p, fork t = some p → fork t' = some p → t = t'

/-- What the third loop does. -/
structure Started (l : List Bytes) (s s' : State) : Prop where
  core : Core s'.current s'.alive
  old : ∀ q ∈ s.alive, q ∈ s'.alive
  new : ∀ q ∈ s'.alive, q ∈ s.alive ∨ q.text ∈ l
  page : s'.page = s.page
  bad : ∀ keep : Bytes → Bool, (∀ t ∈ l, keep t = true) → s'.current.filter (fun e => !keep e.1) = s.current.filter (fun e => !keep e.1)
  same : s'.alive = s.alive → s'.current = s.current
  longer : s.alive.length ≤ s'.alive.length

theorem start_core {cur : List (Bytes × Nat)} {alive : List Proc} (h : Core cur alive) {t : Bytes} {p : Nat} (ht : t ≠ [] ∧ t.length ≤ 511)
    (hr : ∀ q ∈ alive, q.text ≠ t) (ha : p ∉ alive.map (·.pid)) (hc : p ∉ cur.map (·.2)) : Core (putConn t p cur) (alive ++ [⟨p, t⟩]) where
  map := h.map.put t p ht (fun t' hm => absurd (List.mem_map.2 ⟨_, hm, rfl⟩) hc)
  nodup := by
    rw [List.map_append, List.nodup_append]
    refine ⟨h.nodup, by simp, ?_⟩
    intro a ha' b hb e
    simp only [List.map_cons, List.map_nil, List.mem_singleton] at hb
    subst hb; subst e; exact ha ha'
  recd := by
    intro q hq
    rw [putConn_mem]
    rcases List.mem_append.1 hq with h1 | h1
    · exact Or.inr ⟨hr q h1, h.recd q h1⟩
    · rcases List.mem_singleton.1 h1 with rfl
      exact Or.inl ⟨rfl, rfl⟩

theorem startLoop_started (fork : Bytes → Option Nat) (missing : Bytes → Bool) (l : List Bytes) (s : State) (hl : l.Nodup) (hs : ∀ t ∈ l, t ≠ [] ∧ t.length ≤ 511)
    (h : Core s.current s.alive) (hf : Free s.current s.alive fork l) : Started l s (startLoop fork missing l s) := by
  induction l generalizing s with
  | nil => exact ⟨h, fun q hq => hq, fun q hq => Or.inl hq, rfl, fun _ _ => rfl, fun _ => rfl, Nat.le_refl _⟩
  | cons t l ih =>
    rw [List.nodup_cons] at hl
    have hs' : ∀ t ∈ l, t ≠ [] ∧ t.length ≤ 511 := fun x hx => hs x (by simp [hx])
    have hf' : Free s.current s.alive fork l := ⟨fun x hx => hf.1 x (by simp [hx]), hf.2⟩
    have weaken : ∀ s', Started l s s' → Started (t :: l) s s' := by
      intro s' d
      refine ⟨d.core, d.old, fun q hq => ?_, d.page, fun k hk => d.bad k (fun x hx => hk x (by simp [hx])), d.same, d.longer⟩
      rcases d.new q hq with h1 | h1
      · exact Or.inl h1
      · exact Or.inr (by simp [h1])
    rw [startLoop]
    split
    · exact weaken _ (ih s hl.2 hs' h hf')
    · next hr =>
      split
      · exact ⟨h, fun q hq => hq, fun q hq => Or.inl hq, rfl, fun _ _ => rfl, fun _ => rfl, Nat.le_refl _⟩
      · cases hk : fork t with
        | none => exact weaken _ (ih s hl.2 hs' h hf')
        | some p =>
          simp only []
          have hfp := hf.1 t (by simp) p hk
          have hr' : ∀ q ∈ s.alive, q.text ≠ t := fun q hq e => hr ((h.runs t).2 ⟨q, hq, e⟩)
          have hcore := start_core h (hs t (by simp)) hr' hfp.1 hfp.2
          have hfree : Free (putConn t p s.current) (s.alive ++ [⟨p, t⟩]) fork l := by
            refine ⟨?_, hf.2⟩
            intro x hx p' hp'
            have h1 := hf.1 x (by simp [hx]) p' hp'
            have hne : p' ≠ p := by
              intro e; subst e
              exact hl.1 (hf.2 _ _ _ hp' hk ▸ hx)
            refine ⟨?_, ?_⟩
            · simp only [List.map_append, List.mem_append, List.map_cons, List.map_nil, List.mem_singleton]
              rintro (c | c)
              · exact h1.1 c
              · exact hne c
            · intro hm
              obtain ⟨⟨a, b⟩, hab, e⟩ := List.mem_map.1 hm
              simp only at e
              subst e
              rw [putConn_mem] at hab
              rcases hab with ⟨_, c⟩ | ⟨_, c⟩
              · exact hne c
              · exact h1.2 (List.mem_map.2 ⟨_, c, rfl⟩)
          have d := ih { s with current := putConn t p s.current, alive := s.alive ++ [⟨p, t⟩] } hl.2 hs' hcore hfree
          refine ⟨d.core, fun q hq => d.old q (by simp [hq]), fun q hq => ?_, d.page, fun k hk' => ?_, fun e => ?_, ?_⟩
          · rcases d.new q hq with h1 | h1
            · rcases List.mem_append.1 h1 with h1 | h1
              · exact Or.inl h1
              · rcases List.mem_singleton.1 h1 with rfl
                exact Or.inr (by simp)
            · exact Or.inr (by simp [h1])
          · rw [d.bad k (fun x hx => hk' x (by simp [hx]))]
            exact putConn_filter t p k (hk' t (by simp)) _
          · exfalso
            have h1 := d.longer
            have h2 := congrArg List.length e
            simp only [List.length_append, List.length_cons, List.length_nil] at h1
            omega
          · have h1 := d.longer
            simp only [List.length_append] at h1
            omega

theorem startLoop_runs (fork : Bytes → Option Nat) (missing : Bytes → Bool) (hgo : Startable fork missing) (l : List Bytes) (s : State) (hl : l.Nodup)
    (hs : ∀ t ∈ l, t ≠ [] ∧ t.length ≤ 511) (h : Core s.current s.alive) (hf : Free s.current s.alive fork l) :
    (startLoop fork missing l s).hung = s.hung ∧ ∀ t ∈ l, Runs (startLoop fork missing l s) t := by
  induction l generalizing s with
  | nil => exact ⟨rfl, fun t ht => by cases ht⟩
  | cons t l ih =>
    rw [List.nodup_cons] at hl
    have hs' : ∀ t ∈ l, t ≠ [] ∧ t.length ≤ 511 := fun x hx => hs x (by simp [hx])
    have hf' : Free s.current s.alive fork l := ⟨fun x hx => hf.1 x (by simp [hx]), hf.2⟩
    rw [startLoop]
    split
    · next hr =>
      have h1 := ih s hl.2 hs' h hf'
      refine ⟨h1.1, fun x hx => ?_⟩
      rcases List.mem_cons.1 hx with rfl | hx
      · obtain ⟨q, hq, e⟩ := (h.runs x).1 hr
        exact ⟨q, (startLoop_started fork missing l s hl.2 hs' h hf').old q hq, e⟩
      · exact h1.2 x hx
    · next hr =>
      rw [if_neg (by rw [hgo.1]; simp)]
      cases hk : fork t with
      | none => exact absurd hk (hgo.2 t)
      | some p =>
        simp only []
        have hfp := hf.1 t (by simp) p hk
        have hr' : ∀ q ∈ s.alive, q.text ≠ t := fun q hq e => hr ((h.runs t).2 ⟨q, hq, e⟩)
        have hcore := start_core h (hs t (by simp)) hr' hfp.1 hfp.2
        have hfree : Free (putConn t p s.current) (s.alive ++ [⟨p, t⟩]) fork l := by
          refine ⟨?_, hf.2⟩
          intro x hx p' hp'
          have h1 := hf.1 x (by simp [hx]) p' hp'
          have hne : p' ≠ p := by
            intro e; subst e
            exact hl.1 (hf.2 _ _ _ hp' hk ▸ hx)
          refine ⟨?_, ?_⟩
          · simp only [List.map_append, List.mem_append, List.map_cons, List.map_nil, List.mem_singleton]
            rintro (c | c)
            · exact h1.1 c
            · exact hne c
          · intro hm
            obtain ⟨⟨a, b⟩, hab, e⟩ := List.mem_map.1 hm
            simp only at e
            subst e
            rw [putConn_mem] at hab
            rcases hab with ⟨_, c⟩ | ⟨_, c⟩
            · exact hne c
            · exact h1.2 (List.mem_map.2 ⟨_, c, rfl⟩)
        have h1 := ih { s with current := putConn t p s.current, alive := s.alive ++ [⟨p, t⟩] } hl.2 hs' hcore hfree
        refine ⟨h1.1, fun x hx => ?_⟩
        rcases List.mem_cons.1 hx with rfl | hx
        · exact ⟨⟨p, x⟩, (startLoop_started fork missing l { s with current := putConn x p s.current, alive := s.alive ++ [⟨p, x⟩] } hl.2 hs' hcore hfree).old _ (by simp), rfl⟩
        · exact h1.2 x hx

end Verif.Conn
