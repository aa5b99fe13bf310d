import Verif.Conn.Inv

namespace Verif.Conn
open Verif Verif.Json

theorem Fresh.free {s : State} {fork : Bytes → Option Nat} (h : Fresh s fork) (hs : Core s.current s.alive) (caps : List Cap) (entries : List Entry) (l : List Bytes) :
    Free (removed (signalled caps s entries) l).current (removed (signalled caps s entries) l).alive fork l := by
  refine ⟨?_, h.2⟩
  intro t _ p hp
  obtain ⟨h1, h2, _⟩ := h.1 t p hp
  refine ⟨?_, ?_⟩
  · intro hm
    apply h1
    obtain ⟨q, hq, e⟩ := List.mem_map.1 hm
    simp only [removed, signalled, List.mem_filter] at hq
    exact List.mem_map.2 ⟨q, hq.1, e⟩
  · intro hm
    apply h2
    obtain ⟨q, hq, e⟩ := List.mem_map.1 hm
    have := (removeLoop_perm (fun t => decide (t ∈ l)) s.current.length [] s.current).subset (List.mem_append.2 (Or.inl hq))
    exact List.mem_map.2 ⟨q, by simpa using this, e⟩

theorem Short.texts {entries : List Entry} (h : Short entries) (caps : List Cap) : ∀ t ∈ wanted caps entries [], t ≠ [] ∧ t.length ≤ 511 := by
  intro t ht
  rcases (wanted_mem caps entries [] t).1 ht with c | ⟨e, he, rfl, _⟩
  · cases c
  · exact h e he

theorem check_started {caps : List Cap} {entries : List Entry} {fork : Bytes → Option Nat} {s : State} (missing : Bytes → Bool) (hI : Inv s)
    (hF : Fresh s fork) (hS : Short entries) :
    Started (wanted caps entries []) (removed (signalled caps s entries) (wanted caps entries []))
      (startLoop fork missing (wanted caps entries []) (removed (signalled caps s entries) (wanted caps entries []))) :=
  startLoop_started fork missing _ _ (wanted_nodup caps entries) (hS.texts caps) (removed_core (s := signalled caps s entries) hI.core _) (hF.free hI.core caps entries _)

theorem save_current (b s : State) : (save b s).current = s.current := by unfold save; split <;> rfl

theorem save_alive (b s : State) : (save b s).alive = s.alive := by unfold save; split <;> rfl

theorem save_hung (b s : State) : (save b s).hung = s.hung := by unfold save; split <;> rfl

theorem Inv.check {s : State} (h : Inv s) (caps : List Cap) (entries : List Entry) (fork : Bytes → Option Nat) (missing : Bytes → Bool) (hF : Fresh s fork)
    (hS : Short entries) : Inv (check caps entries fork missing s) := by
  unfold Conn.check
  split
  · exact h
  · next hh =>
    have d := check_started (caps := caps) missing h hF hS
    generalize startLoop fork missing (wanted caps entries []) (removed (signalled caps s entries) (wanted caps entries [])) = r at d ⊢
    refine ⟨by rw [save_current, save_alive]; exact d.core, ?_⟩
    rw [save_hung, save_alive]
    intro hr
    unfold save
    split
    · next hc =>
      rcases hc with hc | hc
      · rw [hr] at hc; cases hc
      · rw [hc, d.page]
        exact h.page (by simpa using hh)
    · show Core (saved r.current) r.alive
      rw [saved_eq d.core.map]
      exact d.core

theorem Core.load {cur : List (Bytes × Nat)} {alive : List Proc} (h : Core cur alive) : Core (load cur) alive where
  map := h.map.sub fun e he => (load_mem h.map e).1 he
  nodup := h.nodup
  recd := fun q hq => (load_mem h.map _).2 (h.recd q hq)

theorem Inv.step {s : State} (h : Inv s) (caps : List Cap) (op : Op) (hm : May s op) : Inv (step caps s op) := by
  cases op with
  | check entries fork missing => exact h.check caps entries fork missing hm.1 hm.2
  | die pid => exact ⟨h.core.sub List.filter_sublist, fun hh => (h.page hh).sub List.filter_sublist⟩
  | reload i => exact ⟨h.core, h.page⟩
  | restart =>
    simp only [Conn.step]
    split
    · exact h
    · refine ⟨?_, fun _ => ?_⟩
      · show Core (load (saved s.current)) s.alive
        rw [saved_eq h.core.map]
        exact h.core.load
      · show Core (saved s.current) s.alive
        rw [saved_eq h.core.map]
        exact h.core
  | crash => exact ⟨(h.page hm).load, fun _ => h.page hm⟩

theorem Reach.inv {caps : List Cap} {s : State} (h : Reach caps s) : Inv s := by
  induction h with
  | init =>
    have hm : Map [] := ⟨fun _ _ _ c => (by cases c), fun _ _ _ c => (by cases c), fun _ c => (by cases c)⟩
    have : Core [] [] := ⟨hm, by simp, fun _ c => (by cases c)⟩
    exact ⟨this, fun _ => this⟩
  | step op _ hm ih => exact ih.step caps op hm

/-! ## One check -/

theorem check_runs {caps : List Cap} {entries : List Entry} {fork : Bytes → Option Nat} {missing : Bytes → Bool} {s : State} (hI : Inv s) (hh : s.hung = false)
    (hF : Fresh s fork) (hS : Short entries) (hgo : Startable fork missing) :
    (check caps entries fork missing s).hung = false ∧ ∀ t ∈ wanted caps entries [], Runs (check caps entries fork missing s) t := by
  have d := startLoop_runs fork missing hgo _ _ (wanted_nodup caps entries) (hS.texts caps) (removed_core (s := signalled caps s entries) hI.core _) (hF.free hI.core caps entries _)
  unfold Conn.check
  rw [if_neg (by rw [hh]; simp), save_hung]
  refine ⟨by rw [d.1]; exact hh, fun t ht => ?_⟩
  obtain ⟨q, hq, e⟩ := d.2 t ht
  exact ⟨q, by rw [save_alive]; exact hq, e⟩

theorem check_bad {caps : List Cap} {entries : List Entry} {fork : Bytes → Option Nat} {missing : Bytes → Bool} {s : State} (hI : Inv s) (hh : s.hung = false)
    (hF : Fresh s fork) (hS : Short entries) :
    (check caps entries fork missing s).current.filter (fun e => !decide (e.1 ∈ wanted caps entries [])) =
      (removeLoop (fun t => decide (t ∈ wanted caps entries [])) s.current.length [] s.current).1.filter (fun e => !decide (e.1 ∈ wanted caps entries [])) := by
  have d := check_started (caps := caps) missing hI hF hS
  unfold Conn.check
  rw [if_neg (by rw [hh]; simp), save_current]
  exact d.bad (fun t => decide (t ∈ wanted caps entries [])) (fun t ht => by simpa using ht)

theorem check_keeps {caps : List Cap} {entries : List Entry} {fork : Bytes → Option Nat} {missing : Bytes → Bool} {s : State} (hI : Inv s)
    (hF : Fresh s fork) (hS : Short entries) (q : Proc) (hq : q ∈ s.alive) (hw : q.text ∈ wanted caps entries []) : q ∈ (check caps entries fork missing s).alive := by
  have d := check_started (caps := caps) missing hI hF hS
  unfold Conn.check
  split
  · exact hq
  · rw [save_alive]
    exact d.old q (removed_keeps (s := signalled caps s entries) hI.core _ q hq hw)

theorem check_new {caps : List Cap} {entries : List Entry} {fork : Bytes → Option Nat} {missing : Bytes → Bool} {s : State} (hI : Inv s)
    (hF : Fresh s fork) (hS : Short entries) (q : Proc) (hq : q ∈ (check caps entries fork missing s).alive) : q ∈ s.alive ∨ q.text ∈ wanted caps entries [] := by
  have d := check_started (caps := caps) missing hI hF hS
  unfold Conn.check at hq
  split at hq
  · exact Or.inl hq
  · rw [save_alive] at hq
    rcases d.new q hq with h | h
    · simp only [removed, signalled, List.mem_filter] at h
      exact Or.inl h.1
    · exact Or.inr h

/-! ## Reload signals -/

theorem signalLoop_sound (caps : List Cap) (cur : List (Bytes × Nat)) (alive : List Proc) (i : Nat) (l : List Entry) (reloads : List Nat) (p : Nat)
    (h : p ∈ (signalLoop caps cur alive i l reloads).2) :
    ∃ (j : Nat) (e : Entry), l[j]? = some e ∧ i + j ∈ reloads ∧ refusal caps e = none ∧ pidOf cur e.text = some p ∧ isActive alive p = true := by
  induction l generalizing i reloads with
  | nil => simp [signalLoop] at h
  | cons e l ih =>
    have lift : ∀ r, (∀ x ∈ r, x ∈ reloads) → p ∈ (signalLoop caps cur alive (i + 1) l r).2 →
        ∃ (j : Nat) (e' : Entry), (e :: l)[j]? = some e' ∧ i + j ∈ reloads ∧ refusal caps e' = none ∧ pidOf cur e'.text = some p ∧ isActive alive p = true := by
      intro r hr hp
      obtain ⟨j, e', h1, h2, h3⟩ := ih (i + 1) r hp
      exact ⟨j + 1, e', by simpa using h1, by have := hr _ h2; rwa [Nat.add_assoc, Nat.add_comm 1 j] at this, h3⟩
    rw [signalLoop] at h
    split at h
    · exact lift _ (fun x hx => hx) h
    · next p' hp' =>
      split at h
      · next ha =>
        rcases List.mem_cons.1 h with rfl | h
        · split at hp'
          · next hc => exact ⟨0, e, rfl, by simpa using hc.2, hc.1, hp', ha⟩
          · cases hp'
        · exact lift _ (fun x hx => (List.mem_filter.1 hx).1) h
      · exact lift _ (fun x hx => hx) h

theorem signalLoop_complete (caps : List Cap) (cur : List (Bytes × Nat)) (alive : List Proc) (i : Nat) (l : List Entry) (reloads : List Nat) (j : Nat) (e : Entry) (p : Nat)
    (h1 : l[j]? = some e) (h2 : i + j ∈ reloads) (h3 : refusal caps e = none) (h4 : pidOf cur e.text = some p) (h5 : isActive alive p = true) :
    p ∈ (signalLoop caps cur alive i l reloads).2 ∧ i + j ∉ (signalLoop caps cur alive i l reloads).1 := by
  have mono : ∀ (l : List Entry) (i : Nat) (r : List Nat) (x : Nat), x ∈ (signalLoop caps cur alive i l r).1 → x ∈ r := by
    intro l
    induction l with
    | nil => intro i r x hx; exact hx
    | cons e l ih =>
      intro i r x hx
      rw [signalLoop] at hx
      split at hx
      · exact ih _ _ _ hx
      · split at hx
        · exact (List.mem_filter.1 (ih _ _ _ hx)).1
        · exact ih _ _ _ hx
  induction l generalizing i reloads j with
  | nil => simp at h1
  | cons x l ih =>
    cases j with
    | zero =>
      simp only [List.getElem?_cons_zero, Option.some.injEq] at h1
      subst h1
      rw [signalLoop, if_pos ⟨h3, by simpa using h2⟩, h4]
      simp only [h5, if_true]
      refine ⟨by simp, fun c => ?_⟩
      have := (List.mem_filter.1 (mono _ _ _ _ c)).2
      simp at this
    | succ j =>
      simp only [List.getElem?_cons_succ] at h1
      have e1 : i + (j + 1) = i + 1 + j := by omega
      rw [e1] at h2 ⊢
      rw [signalLoop]
      split
      · exact ih _ _ _ h1 h2
      · split
        · have h6 : i + 1 + j ∈ reloads.filter (· ≠ i) := by
            rw [List.mem_filter]; exact ⟨h2, by simp; omega⟩
          have := ih (i + 1) (reloads.filter (· ≠ i)) j h1 h6
          exact ⟨List.mem_cons.2 (Or.inr this.1), this.2⟩
        · exact ih _ _ _ h1 h2

theorem signalLoop_rest (caps : List Cap) (cur : List (Bytes × Nat)) (alive : List Proc) (l : List Entry) (i : Nat) (r : List Nat) (x : Nat)
    (hx : x ∈ r) (hn : ∀ (j : Nat) (e : Entry) (p : Nat), l[j]? = some e → x = i + j → refusal caps e = none → pidOf cur e.text = some p → isActive alive p = false) :
    x ∈ (signalLoop caps cur alive i l r).1 := by
  induction l generalizing i r with
  | nil => exact hx
  | cons e l ih =>
    have step : ∀ r, x ∈ r → x ∈ (signalLoop caps cur alive (i + 1) l r).1 := by
      intro r hr
      refine ih (i + 1) r hr (fun j e' p h1 h2 => hn (j + 1) e' p (by simpa using h1) (by omega))
    rw [signalLoop]
    split
    · exact step _ hx
    · next p hp =>
      split
      · next ha =>
        refine step _ (List.mem_filter.2 ⟨hx, ?_⟩)
        simp only [ne_eq, decide_not, Bool.not_eq_true', decide_eq_false_iff_not]
        intro c
        split at hp
        · next hc =>
          have := hn 0 e p rfl (by simpa using c) hc.1 hp
          rw [this] at ha; cases ha
        · cases hp
      · exact step _ hx

theorem startLoop_signals (fork : Bytes → Option Nat) (missing : Bytes → Bool) (l : List Bytes) (s : State) :
    (startLoop fork missing l s).signals = s.signals ∧ (startLoop fork missing l s).reloads = s.reloads := by
  induction l generalizing s with
  | nil => exact ⟨rfl, rfl⟩
  | cons t l ih =>
    rw [startLoop]
    split
    · exact ih s
    · split
      · exact ⟨rfl, rfl⟩
      · split
        · exact ih s
        · exact ih _

theorem check_signals (caps : List Cap) (entries : List Entry) (fork : Bytes → Option Nat) (missing : Bytes → Bool) (s : State) (hh : s.hung = false) :
    (check caps entries fork missing s).signals = s.signals ++ (signalLoop caps s.current s.alive 0 entries s.reloads).2 ∧
    (check caps entries fork missing s).reloads = (signalLoop caps s.current s.alive 0 entries s.reloads).1 := by
  have hsv : ∀ b s : State, (save b s).signals = s.signals ∧ (save b s).reloads = s.reloads := by
    intro b s; unfold save; split <;> exact ⟨rfl, rfl⟩
  unfold Conn.check
  rw [if_neg (by rw [hh]; simp), (hsv _ _).1, (hsv _ _).2, (startLoop_signals _ _ _ _).1, (startLoop_signals _ _ _ _).2]
  exact ⟨rfl, rfl⟩

/-! ## Requests -/

theorem split_at {e : Entry} {l : List Entry} {x : Entry} {after : List Entry} (h : l.dropWhile (fun x => !decide (x = e)) = x :: after) :
    x = e ∧ l = l.takeWhile (fun x => !decide (x = e)) ++ e :: after := by
  have h1 : x = e := by
    have := List.head_dropWhile_not (fun x : Entry => !decide (x = e)) (l := l) (by rw [h]; simp)
    simpa [h] using this
  refine ⟨h1, ?_⟩
  have hs : l.takeWhile (fun x => !decide (x = e)) ++ l.dropWhile (fun x => !decide (x = e)) = l := List.takeWhile_append_dropWhile
  rw [h, h1] at hs
  exact hs.symm

theorem no_split {e : Entry} {l : List Entry} (h : l.dropWhile (fun x => !decide (x = e)) = []) : e ∉ l := by
  induction l with
  | nil => simp
  | cons x l ih =>
    rw [List.dropWhile_cons] at h
    split at h
    · next hx =>
      simp only [Bool.not_eq_true', decide_eq_false_iff_not] at hx
      intro c
      rcases List.mem_cons.1 c with c | c
      · exact hx c.symm
      · exact ih h c
    · cases h

theorem dropDuplicate_some (before l l' : List Entry) (h : dropDuplicate before l = some l') :
    (∀ e, e ∈ l' ↔ e ∈ before ++ l) ∧ l'.length + 1 = (before ++ l).length ∧ l'.Sublist (before ++ l) := by
  induction l generalizing before with
  | nil => simp [dropDuplicate] at h
  | cons e l ih =>
    rw [dropDuplicate] at h
    split at h
    · next x after hd =>
      obtain ⟨_, h2⟩ := split_at hd
      have h : before.takeWhile (fun x => !decide (x = e)) ++ after ++ e :: l = l' := Option.some.inj h
      generalize before.takeWhile (fun x => !decide (x = e)) = b at *
      subst h; subst h2
      refine ⟨fun y => ?_, ?_, ?_⟩
      · simp only [List.mem_append, List.mem_cons]; grind
      · simp only [List.length_append, List.length_cons]; omega
      · exact (List.Sublist.append_left (List.sublist_cons_self _ _) _).append_right _
    · split at h
      · next x after hd =>
        obtain ⟨_, h2⟩ := split_at hd
        have h : before ++ e :: (l.takeWhile (fun x => !decide (x = e)) ++ after) = l' := Option.some.inj h
        generalize l.takeWhile (fun x => !decide (x = e)) = b at *
        subst h; subst h2
        refine ⟨fun y => ?_, ?_, ?_⟩
        · simp only [List.mem_append, List.mem_cons]; grind
        · simp only [List.length_append, List.length_cons]; omega
        · exact List.Sublist.append_left (List.Sublist.cons_cons _ (List.Sublist.append_left (List.sublist_cons_self _ _) _)) _
      · have := ih (before ++ [e]) h
        simpa using this

theorem dropDuplicate_none (before l : List Entry) (h : dropDuplicate before l = none) (hb : before.Nodup) : (before ++ l).Nodup := by
  induction l generalizing before with
  | nil => simpa using hb
  | cons e l ih =>
    rw [dropDuplicate] at h
    split at h
    · cases h
    · next hd =>
      split at h
      · cases h
      · have := ih (before ++ [e]) h (by
          rw [List.nodup_append]
          refine ⟨hb, by simp, ?_⟩
          intro a ha b hb' c
          rcases List.mem_singleton.1 hb' with rfl
          subst c
          exact no_split hd ha)
        simpa using this

theorem removeDuplicates_spec (n : Nat) (l : List Entry) (hn : l.length ≤ n) :
    (removeDuplicates n l).Nodup ∧ (∀ e, e ∈ removeDuplicates n l ↔ e ∈ l) ∧ (removeDuplicates n l).Sublist l := by
  induction n generalizing l with
  | zero =>
    have := List.eq_nil_of_length_eq_zero (l := l) (by omega)
    subst this; simp [removeDuplicates]
  | succ n ih =>
    rw [removeDuplicates]
    cases hd : dropDuplicate [] l with
    | none => exact ⟨by simpa using dropDuplicate_none [] l hd (by simp), fun _ => Iff.rfl, List.Sublist.refl _⟩
    | some l' =>
      obtain ⟨h1, h2, h3⟩ := dropDuplicate_some [] l l' hd
      simp only [List.nil_append] at h1 h2 h3
      obtain ⟨a, b, c⟩ := ih l' (by omega)
      exact ⟨a, fun e => (b e).trans (h1 e), c.trans h3⟩

theorem prefix_cut {conf u v : List Entry} {e : Entry} (h : conf <+: u ++ e :: v) (hn : conf.Nodup) (he : e ∈ u) : conf <+: u ++ v := by
  by_cases hl : conf.length ≤ u.length
  · exact (List.prefix_of_prefix_length_le h (List.prefix_append _ _) hl).trans (List.prefix_append _ _)
  · exfalso
    have h1 : u ++ [e] <+: u ++ e :: v := ⟨v, by simp⟩
    have h2 := List.prefix_of_prefix_length_le h1 h (by simp only [List.length_append, List.length_cons, List.length_nil]; omega)
    have h3 := hn.sublist h2.sublist
    rw [List.nodup_append] at h3
    exact h3.2.2 e he e (by simp) rfl

theorem dropDuplicate_prefix (before l l' conf : List Entry) (h : dropDuplicate before l = some l') (hb : ∀ x ∈ before, x ∉ l) (hc : conf <+: before ++ l) (hn : conf.Nodup) :
    conf <+: l' := by
  induction l generalizing before with
  | nil => simp [dropDuplicate] at h
  | cons e l ih =>
    rw [dropDuplicate] at h
    split at h
    · next x after hd =>
      obtain ⟨_, h2⟩ := split_at hd
      exact absurd (by simp) (hb e (by rw [h2]; simp))
    · split at h
      · next x after hd =>
        obtain ⟨_, h2⟩ := split_at hd
        have h : before ++ e :: (l.takeWhile (fun x => !decide (x = e)) ++ after) = l' := Option.some.inj h
        generalize l.takeWhile (fun x => !decide (x = e)) = b at *
        subst h; subst h2
        have := prefix_cut (u := before ++ e :: b) (v := after) (e := e) (by simpa using hc) hn (by simp)
        simpa using this
      · next hd =>
        refine ih (before ++ [e]) h ?_ (by simpa using hc)
        intro x hx hm
        rcases List.mem_append.1 hx with hx | hx
        · exact hb x hx (by simp [hm])
        · rcases List.mem_singleton.1 hx with rfl
          exact no_split hd hm

theorem removeDuplicates_prefix (n : Nat) (l conf : List Entry) (hn : conf.Nodup) (hc : conf <+: l) : conf <+: removeDuplicates n l := by
  induction n generalizing l with
  | zero => exact hc
  | succ n ih =>
    rw [removeDuplicates]
    cases hd : dropDuplicate [] l with
    | none => exact hc
    | some l' => exact ih l' (dropDuplicate_prefix [] l l' conf hd (by simp) hc hn)

end Verif.Conn
