import Verif.Conn.Hist

/-! # C104: the protocols that run are those of the configuration -/
namespace Verif.Conn
open Verif

/-- When the controller looks at the configuration a second time, exactly the listeners it asks for run, each once. Partial: the second look is needed
(`C104_removal_fails`), no program may be missing (`C104_hang_fails`), and the texts of the entries must fit in the page (`C104_long_fails`). -/
theorem C104_exact_partial (caps : List Cap) (s : State) (entries : List Entry) (fork fork' : Bytes → Option Nat) (missing missing' : Bytes → Bool)
    (hR : Reach caps s) (hh : s.hung = false) (hN : Named caps entries) (hS : Short entries) (hF : Fresh s fork)
    (hF' : Fresh (check caps entries fork missing s) fork') (hg : Startable fork missing) (hg' : Startable fork' missing') (t : Bytes) :
    let s2 := check caps entries fork' missing' (check caps entries fork missing s)
    (s2.alive.map (·.text)).Nodup ∧ (Runs s2 t ↔ Wanted caps entries t) ∧ s2.hung = false := by
  intro s2
  have hI := hR.inv
  have h1 := check_runs (caps := caps) hI hh hF hS hg
  have hI1 := hI.check caps entries fork missing hF hS
  have h2 := check_runs (caps := caps) hI1 h1.1 hF' hS hg'
  have hI2 := hI1.check caps entries fork' missing' hF' hS
  refine ⟨hI2.core.text, ⟨?_, fun hw => h2.2 t ((wanted_iff hN t).2 hw)⟩, h2.1⟩
  rintro ⟨q, hq, rfl⟩
  refine Classical.byContradiction fun hn => ?_
  have hn' : q.text ∉ wanted caps entries [] := fun c => hn ((wanted_iff hN _).1 c)
  have hone := removeLoop_one (fun t => decide (t ∈ wanted caps entries [])) s.current.length [] s.current (by simp) (by simp)
  rw [← check_bad (caps := caps) (missing := missing) hI hh hF hS] at hone
  have hall := removeLoop_last (fun t => decide (t ∈ wanted caps entries [])) _ hone
  have hb := check_bad (caps := caps) (missing := missing') hI1 h1.1 hF' hS
  have hnil := filter_bad_nil (keep := fun t => decide (t ∈ wanted caps entries [])) hall
  rw [hnil] at hb
  have hr := hI2.core.recd q hq
  have : (q.text, q.pid) ∈ s2.current.filter (fun e => !decide (e.1 ∈ wanted caps entries [])) := by
    rw [List.mem_filter]; exact ⟨hr, by simpa using hn'⟩
  rw [hb] at this
  cases this

/-- After one look, all the listeners the configuration asks for run, each once, and at most one other still does. -/
theorem C104_once (caps : List Cap) (s : State) (entries : List Entry) (fork : Bytes → Option Nat) (missing : Bytes → Bool) (hR : Reach caps s)
    (hh : s.hung = false) (hN : Named caps entries) (hS : Short entries) (hF : Fresh s fork) (hg : Startable fork missing) :
    let s1 := check caps entries fork missing s
    (s1.alive.map (·.text)).Nodup ∧ (∀ t, Wanted caps entries t → Runs s1 t) ∧
    ∀ q ∈ s1.alive, ∀ r ∈ s1.alive, ¬ Wanted caps entries q.text → ¬ Wanted caps entries r.text → q = r := by
  intro s1
  have hI := hR.inv
  have h1 := check_runs (caps := caps) hI hh hF hS hg
  have hI1 := hI.check caps entries fork missing hF hS
  refine ⟨hI1.core.text, fun t hw => h1.2 t ((wanted_iff hN t).2 hw), ?_⟩
  intro q hq r hr hnq hnr
  have hone := removeLoop_one (fun t => decide (t ∈ wanted caps entries [])) s.current.length [] s.current (by simp) (by simp)
  rw [← check_bad (caps := caps) (missing := missing) hI hh hF hS] at hone
  have hm : ∀ x ∈ s1.alive, ¬ Wanted caps entries x.text → (x.text, x.pid) ∈ s1.current.filter (fun e => !decide (e.1 ∈ wanted caps entries [])) := by
    intro x hx hn
    rw [List.mem_filter]
    refine ⟨hI1.core.recd x hx, ?_⟩
    have : x.text ∉ wanted caps entries [] := fun c => hn ((wanted_iff hN _).1 c)
    simpa using this
  have a := hm q hq hnq
  have b := hm r hr hnr
  have hs1 : s1 = check caps entries fork missing s := rfl
  rw [← hs1] at hone
  generalize s1.current.filter (fun e => !decide (e.1 ∈ wanted caps entries [])) = l at *
  cases l with
  | nil => cases a
  | cons x l =>
    have : l = [] := List.eq_nil_of_length_eq_zero (by simp only [List.length_cons] at hone; omega)
    subst this
    have a := List.mem_singleton.1 a
    have b := List.mem_singleton.1 b
    rw [← b] at a
    cases q; cases r
    simp only [Prod.mk.injEq] at a
    obtain ⟨rfl, rfl⟩ := a
    rfl

/-- What a connector that is asked for lives through: looks at configurations that ask for it, the ends of others, reloads, and starts of the controller. -/
def Spares (caps : List Cap) (q : Proc) : State → List Op → Prop
  | _, [] => True
  | s, op :: ops => May s op ∧ (match op with
      | .check entries _ _ => Named caps entries ∧ Wanted caps entries q.text
      | .die pid => pid ≠ q.pid
      | _ => True) ∧ Spares caps q (step caps s op) ops

/-- A listener that runs is left alone, as long as the configuration asks for it: it is neither stopped nor started again, whatever else is changed, and also
when the controller itself is started again. -/
theorem C104_kept (caps : List Cap) (s : State) (q : Proc) (ops : List Op) (hR : Reach caps s) (hq : q ∈ s.alive) (hS : Spares caps q s ops) :
    q ∈ (ops.foldl (step caps) s).alive ∧ ∀ r ∈ (ops.foldl (step caps) s).alive, r.text = q.text → r = q := by
  induction ops generalizing s with
  | nil =>
    refine ⟨hq, fun r hr e => ?_⟩
    have hc := hR.inv.core
    have h1 := hc.recd r hr
    rw [e] at h1
    have h2 := hc.map.fn _ _ _ h1 (hc.recd q hq)
    cases r; cases q
    simp only at e h2
    subst e; subst h2; rfl
  | cons op ops ih =>
    obtain ⟨hm, hop, hrest⟩ := hS
    refine ih _ (Reach.step op hR hm) ?_ hrest
    cases op with
    | check entries fork missing => exact check_keeps hR.inv hm.1 hm.2 q hq ((wanted_iff hop.1 _).2 hop.2)
    | die pid =>
      simp only [step, List.mem_filter, ne_eq, decide_not, Bool.not_eq_true', decide_eq_false_iff_not]
      exact ⟨hq, fun c => hop c.symm⟩
    | reload i => exact hq
    | restart => simp only [step]; split <;> exact hq
    | crash => exact hq

/-- Nothing is started that the configuration does not ask for. -/
theorem C104_new (caps : List Cap) (s : State) (entries : List Entry) (fork : Bytes → Option Nat) (missing : Bytes → Bool) (hR : Reach caps s)
    (hN : Named caps entries) (hS : Short entries) (hF : Fresh s fork) (q : Proc) (hq : q ∈ (check caps entries fork missing s).alive) (hn : q ∉ s.alive) :
    Wanted caps entries q.text := by
  rcases check_new hR.inv hF hS q hq with h | h
  · exact absurd h hn
  · exact (wanted_iff hN _).1 h

/-- What is shown for an entry: it runs, or is being started, exactly if it stands for a listener. -/
theorem C104_status (caps : List Cap) (s : State) (entries : List Entry) (e : Entry) (hR : Reach caps s) (hN : Named caps entries) (he : e ∈ entries) :
    (online caps s e = .running ↔ Listener caps e ∧ Runs s e.text) ∧ (online caps s e = .starting ↔ Listener caps e ∧ ¬ Runs s e.text) := by
  have h1 := refusal_iff hN.1 (hN.2 e he)
  have h2 := hR.inv.core.runs e.text
  have h3 : ∀ r, refusal caps e = some r → r ≠ .running ∧ r ≠ .starting := by
    intro r hr
    unfold refusal at hr
    repeat' split at hr
    all_goals first | (cases hr; exact ⟨by simp, by simp⟩) | cases hr
  unfold online
  cases hc : refusal caps e with
  | some r =>
    have hl : ¬ Listener caps e := fun c => by rw [h1.2 c] at hc; cases hc
    have := h3 r hc
    simp [hl, this.1, this.2]
  | none =>
    have hl := h1.1 hc
    simp only [← h2]
    cases hr : runs s e.text <;> simp [hl]

/-- Why an entry is not started. -/
theorem C104_reason (caps : List Cap) (s : State) (e : Entry) (hc : (caps.map (·.name)).Nodup) (he : (e.params.map (·.1)).Nodup) :
    (online caps s e = .noName ↔ e.connector = none ∨ e.connector = some []) ∧
    (online caps s e = .notInstalled ↔ ∃ n, e.connector = some n ∧ n ≠ [] ∧ ∀ c ∈ caps, c.name ≠ n) ∧
    ∀ c ∈ caps, e.connector = some c.name → c.name ≠ [] →
      (online caps s e = .pushOnly ↔ c.pushOnly = true) ∧
      (online caps s e = .enabled ↔ c.pushOnly = false ∧ (c.socket = true ∨ (c.deps = some sHttp ∧ c.provides = false))) ∧
      (online caps s e = .invalid ↔ Listens c ∧ ∃ r ∈ c.required, ¬ Gives e r) := by
  have hon : ∀ r : Status, r ≠ .running → r ≠ .starting → (online caps s e = r ↔ refusal caps e = some r) := by
    intro r h1 h2
    unfold online
    cases refusal caps e with
    | some x => simp
    | none => simp only []; split <;> simp [Ne.symm h1, Ne.symm h2]
  rw [hon .noName (by simp) (by simp), hon .notInstalled (by simp) (by simp)]
  refine ⟨?_, ?_, ?_⟩
  · unfold refusal
    cases e.connector with
    | none => simp
    | some n =>
      simp only []
      by_cases h0 : n = []
      · simp [h0]
      · simp only [h0, if_false]
        have : ¬ (some n = none ∨ some n = some ([] : Bytes)) := by
          rintro (c | c)
          · cases c
          · exact h0 (Option.some.inj c)
        simp only [this, iff_false]
        split
        · simp
        · repeat' split
          all_goals simp
  · unfold refusal
    cases e.connector with
    | none => simp
    | some n =>
      simp only []
      by_cases h0 : n = []
      · simp [h0]
      · simp only [h0, if_false]
        cases hf : caps.find? (·.name = n) with
        | none =>
          rw [List.find?_eq_none] at hf
          simp only [true_iff]
          exact ⟨n, rfl, h0, fun c hm => by simpa using hf c hm⟩
        | some c =>
          have h1 := List.mem_of_find?_eq_some hf
          have h2 := List.find?_some hf
          simp only [decide_eq_true_eq] at h2
          have : ¬ ∃ n', some n = some n' ∧ n' ≠ [] ∧ ∀ c ∈ caps, c.name ≠ n' := by
            rintro ⟨n', h3, _, h4⟩
            have h3 : n = n' := Option.some.inj h3
            exact h4 c h1 (by rw [h2, h3])
          simp only [this, iff_false]
          repeat' split
          all_goals simp
  · intro c hm hn h0
    rw [hon .pushOnly (by simp) (by simp), hon .enabled (by simp) (by simp), hon .invalid (by simp) (by simp)]
    have hl : c.required.any (lacks e) = true ↔ ∃ r ∈ c.required, ¬ Gives e r := by
      rw [List.any_eq_true]
      constructor
      · rintro ⟨r, hr, h⟩
        exact ⟨r, hr, fun g => by rw [(lacks_iff he r).2 g] at h; cases h⟩
      · rintro ⟨r, hr, h⟩
        refine ⟨r, hr, ?_⟩
        cases hx : lacks e r with
        | true => rfl
        | false => exact absurd ((lacks_iff he r).1 hx) h
    rw [← hl]
    unfold refusal Listens
    simp only [hn, if_neg h0, find_cap hc hm]
    cases c.pushOnly <;> cases c.socket <;> cases c.provides <;> cases c.required.any (lacks e) <;> by_cases hd : c.deps = some sHttp <;> simp [hd]

/-- A reload that was asked for by number goes to the listener of the entry with that number, once; nothing else is signalled, and a reload whose entry does not run
stays asked for. -/
theorem C104_reload (caps : List Cap) (s : State) (entries : List Entry) (fork : Bytes → Option Nat) (missing : Bytes → Bool) (hR : Reach caps s) (hh : s.hung = false)
    (hN : Named caps entries) :
    ∃ new, (check caps entries fork missing s).signals = s.signals ++ new ∧
      (∀ p, p ∈ new ↔ ∃ (i : Nat) (e : Entry) (q : Proc), entries[i]? = some e ∧ i ∈ s.reloads ∧ Listener caps e ∧ q ∈ s.alive ∧ q.text = e.text ∧ q.pid = p) ∧
      ∀ i ∈ s.reloads, i ∈ (check caps entries fork missing s).reloads ↔ ¬ ∃ e, entries[i]? = some e ∧ Listener caps e ∧ Runs s e.text := by
  have hc := check_signals caps entries fork missing s hh
  have hI := hR.inv.core
  have act : ∀ (t : Bytes) (p : Nat), pidOf s.current t = some p → isActive s.alive p = true → ∃ q ∈ s.alive, q.text = t ∧ q.pid = p := by
    intro t p h1 h2
    simp only [isActive, List.any_eq_true, decide_eq_true_eq] at h2
    obtain ⟨q, hq, e⟩ := h2
    have := hI.recd q hq
    rw [e] at this
    exact ⟨q, hq, hI.map.inj _ _ _ this (pidOf_some h1), e⟩
  have pid : ∀ q ∈ s.alive, pidOf s.current q.text = some q.pid ∧ isActive s.alive q.pid = true := by
    intro q hq
    have h1 := hI.recd q hq
    obtain ⟨p, hp⟩ := pidOf_mem h1
    have := hI.map.fn _ _ _ h1 (pidOf_some hp)
    subst this
    refine ⟨hp, ?_⟩
    simp only [isActive, List.any_eq_true, decide_eq_true_eq]
    exact ⟨q, hq, rfl⟩
  refine ⟨_, hc.1, fun p => ⟨fun hp => ?_, ?_⟩, fun i hi => ⟨?_, fun hn => ?_⟩⟩
  · obtain ⟨j, e, h1, h2, h3, h4, h5⟩ := signalLoop_sound _ _ _ _ _ _ _ hp
    obtain ⟨q, hq, h6, h7⟩ := act _ _ h4 h5
    exact ⟨j, e, q, h1, by simpa using h2, (refusal_iff hN.1 (hN.2 e (List.mem_of_getElem? h1))).1 h3, hq, h6, h7⟩
  · rintro ⟨i, e, q, h1, h2, h3, hq, h4, rfl⟩
    have h5 := pid q hq
    rw [h4] at h5
    exact (signalLoop_complete caps s.current s.alive 0 entries s.reloads i e q.pid h1 (by simpa using h2) ((refusal_iff hN.1 (hN.2 e (List.mem_of_getElem? h1))).2 h3) h5.1 h5.2).1
  · rintro hm ⟨e, h1, h3, q, hq, h4⟩
    rw [hc.2] at hm
    have h5 := pid q hq
    rw [h4] at h5
    refine (signalLoop_complete caps s.current s.alive 0 entries s.reloads i e q.pid h1 (by simpa using hi) ((refusal_iff hN.1 (hN.2 e (List.mem_of_getElem? h1))).2 h3) h5.1 h5.2).2 ?_
    simpa using hm
  · rw [hc.2]
    refine signalLoop_rest _ _ _ _ _ _ _ hi ?_
    intro j e p h1 h2 h3 h4
    rw [Nat.zero_add] at h2
    subst h2
    cases hx : isActive s.alive p with
    | false => rfl
    | true =>
      obtain ⟨q, hq, h6, _⟩ := act _ _ h4 hx
      exact absurd ⟨e, h1, (refusal_iff hN.1 (hN.2 e (List.mem_of_getElem? h1))).1 h3, q, hq, h6⟩ hn

/-- Requests: what is added is there, what is deleted is not, an update replaces one entry by another, and no entry is there twice. -/
theorem C104_config (conf : List Entry) :
    (∀ l, (apply conf (.set l)).Nodup ∧ ∀ e, e ∈ apply conf (.set l) ↔ e ∈ l) ∧
    (∀ l, (apply conf (.add l)).Nodup ∧ ∀ e, e ∈ apply conf (.add l) ↔ e ∈ conf ∨ e ∈ l) ∧
    (∀ l e, e ∈ apply conf (.delete l) ↔ e ∈ conf ∧ e ∉ l) ∧
    ∀ a b, (apply conf (.update a b)).Nodup ∧ ∀ e, e ∈ apply conf (.update a b) ↔ (e ∈ conf ∧ e ≠ a) ∨ (e = b ∧ a ∈ conf) := by
  refine ⟨fun l => ?_, fun l => ?_, fun l e => ?_, fun a b => ?_⟩
  · have h := removeDuplicates_spec l.length l (Nat.le_refl _)
    exact ⟨h.1, h.2.1⟩
  · have h := removeDuplicates_spec (conf ++ l).length (conf ++ l) (Nat.le_refl _)
    exact ⟨h.1, fun e => (h.2.1 e).trans List.mem_append⟩
  · simp [apply]
  · have h := removeDuplicates_spec conf.length (conf.map fun e => if e = a then b else e) (by simp)
    refine ⟨h.1, fun e => (h.2.1 e).trans ?_⟩
    rw [List.mem_map]
    constructor
    · rintro ⟨x, hx, hxe⟩
      split at hxe
      · next c => subst c; exact Or.inr ⟨hxe.symm, hx⟩
      · next c => subst hxe; exact Or.inl ⟨hx, c⟩
    · rintro (⟨h1, h2⟩ | ⟨rfl, h2⟩)
      · exact ⟨e, h1, if_neg h2⟩
      · exact ⟨a, h2, if_pos rfl⟩

/-- Over any history of requests, no entry is there twice. -/
theorem C104_distinct (conf : List Entry) (h : conf.Nodup) (reqs : List Req) : (reqs.foldl apply conf).Nodup := by
  induction reqs generalizing conf with
  | nil => exact h
  | cons r reqs ih =>
    refine ih _ ?_
    cases r with
    | set l => exact ((C104_config conf).1 l).1
    | add l => exact ((C104_config conf).2.1 l).1
    | delete l => exact h.sublist List.filter_sublist
    | update a b => exact ((C104_config conf).2.2.2 a b).1

/-- Adding entries keeps those that were there, in their order, in front; deleting keeps the order of the others. -/
theorem C104_order (conf l : List Entry) (h : conf.Nodup) : conf <+: apply conf (.add l) ∧ (apply conf (.delete l)).Sublist conf :=
  ⟨removeDuplicates_prefix _ _ conf h (List.prefix_append _ _), List.filter_sublist⟩

/-! ## Where the program does not do this -/

/-- A connector that is installed. -/
def capH : Cap := ⟨[0x48], false, false, none, false, []⟩
/-- Three entries. -/
def e1 : Entry := ⟨[1], some [0x48], []⟩
def e2 : Entry := ⟨[2], some [0x48], []⟩
def e3 : Entry := ⟨[3], some [0x48], []⟩
/-- Numbers for new processes. -/
def forkAt (n : Nat) (t : Bytes) : Option Nat := some (n + (t.head?.getD 0).toNat)
/-- All programs are there. -/
def allThere (_ : Bytes) : Bool := false

/-- When the first two listeners are taken out of the configuration at once, one look stops only the first. -/
theorem C104_removal_fails :
    ∃ s : State, s = check [capH] [e3] (forkAt 100) allThere (check [capH] [e1, e2, e3] (forkAt 10) allThere {}) ∧ ¬ Wanted [capH] [e3] [2] ∧ Runs s [2] := by
  refine ⟨_, rfl, ?_, ⟨12, [2]⟩, by decide +kernel, rfl⟩
  rintro ⟨e, he, ht, _⟩
  rcases List.mem_singleton.1 he with rfl
  revert ht; decide

/-- When the program of a connector is not there, the controller never looks at the configuration again: whatever is asked for later is not done. -/
theorem C104_hang_fails :
    ∃ s : State, s = check [capH] [e1] (forkAt 10) (fun _ => true) {} ∧ s.hung = true ∧
      ∀ entries fork missing, check [capH] entries fork missing s = s := by
  refine ⟨_, rfl, by decide +kernel, ?_⟩
  intro entries fork missing
  exact if_pos (by decide +kernel)

/-- An entry whose text is longer than the page allows. -/
def eLong : Entry := ⟨List.replicate 512 7, some [0x48], []⟩

/-- After a rolling restart a listener with a text of 512 bytes or more is not recognised: it is stopped, and another one is started. -/
theorem C104_long_fails :
    ∃ s s' : State, s = check [capH] [eLong] (forkAt 10) allThere {} ∧ s' = check [capH] [eLong] (forkAt 100) allThere (step [capH] s .restart) ∧
      s.alive.map (·.pid) = [17] ∧ s'.alive.map (·.pid) = [107] := by
  exact ⟨_, _, rfl, rfl, by decide +kernel, by decide +kernel⟩

/-- A reload is asked for by number: when an earlier entry is taken out before the next look, another listener is reloaded. -/
theorem C104_reload_fails :
    ∃ s : State, s = check [capH] [e2, e3] (forkAt 100) allThere (step [capH] (check [capH] [e1, e2, e3] (forkAt 10) allThere {}) (.reload 1)) ∧ [e1, e2, e3][1]? = some e2 ∧
      s.signals = [13] ∧ (⟨12, [2]⟩ : Proc) ∈ s.alive ∧ (⟨13, [3]⟩ : Proc) ∈ s.alive := by
  exact ⟨_, rfl, rfl, by decide +kernel, by decide +kernel, by decide +kernel⟩

/-! ## Cases -/

/-- A connector that needs a parameter. -/
def capR : Cap := ⟨[0x52], false, false, none, false, [[0x70]]⟩
/-- An entry that gives it, and one that does not. -/
def eR : Entry := ⟨[4], some [0x52], [([0x70], .str [0x61])]⟩
def eX : Entry := ⟨[5], some [0x52], [([0x70], .str [])]⟩

example : Named [capH, capR] [e1, eR, eX] ∧ Short [e1, eR, eX] := by
  refine ⟨⟨by decide, ?_⟩, ?_⟩
  · intro e he
    simp only [List.mem_cons, List.not_mem_nil, or_false] at he
    rcases he with rfl | rfl | rfl <;> decide
  · intro e he
    simp only [List.mem_cons, List.not_mem_nil, or_false] at he
    rcases he with rfl | rfl | rfl <;> decide

example : Startable (forkAt 10) allThere := ⟨fun _ => rfl, fun _ h => by cases h⟩

example : (check [capH, capR] [e1, eR, eX] (forkAt 10) allThere {}).alive = [⟨11, [1]⟩, ⟨14, [4]⟩] ∧
    online [capH, capR] {} eX = .invalid ∧ online [capH, capR] {} eR = .starting := by
  exact ⟨by decide +kernel, by decide +kernel, by decide +kernel⟩

example : (check [capH] [e3] (forkAt 200) allThere (check [capH] [e3] (forkAt 100) allThere (check [capH] [e1, e2, e3] (forkAt 10) allThere {}))).alive = [⟨13, [3]⟩] := by
  decide +kernel

end Verif.Conn
