import Verif.Play.Order

/-!
# No track starves
-/
namespace Verif.Play
open Spec

theorem nodup_length (l m : List Nat) (hl : l.Nodup) (h : ∀ x ∈ l, x ∈ m) : l.length ≤ m.length := by
  induction l generalizing m with
  | nil => simp
  | cons a l ih =>
    have hc := List.nodup_cons.1 hl
    have ham := h a (by simp)
    have := ih (m.erase a) hc.2 (fun x hx => (List.mem_erase_of_ne (by intro h0; exact hc.1 (h0 ▸ hx))).2 (h x (by simp [hx])))
    rw [List.length_erase_of_mem ham] at this
    have := List.length_pos_of_mem ham
    simp only [List.length_cons]
    omega

theorem Inv.len {T st tids skip} (h : Inv T st tids skip) : st.buf.length ≤ tids.length := by
  have := nodup_length (st.buf.map Entry.tid) tids h.nodup (fun x hx => by
    obtain ⟨e, he, rfl⟩ := List.mem_map.1 hx
    exact h.sub e he)
  simpa using this

theorem turn {T st tids skip} (h : Inv T st tids skip) (hs : st.sync = false) {l1 l2 : List Entry} {e : Entry} (hb : st.buf = l1 ++ e :: l2)
    (h2 : (skip e.tid).length + (sent e.tid st.out).length + 2 ≤ (packets (T e.tid).pages).length) :
    ((sent e.tid (Play.attempt st).state.out).length = (sent e.tid st.out).length + 1 ∧ ∃ st' r, Play.attempt st = .stop st' r) ∨
    (sent e.tid (Play.attempt st).state.out = sent e.tid st.out ∧ ∃ l1' e' l2', (Play.attempt st).state.buf = l1' ++ e' :: l2' ∧ e'.tid = e.tid ∧
      l1'.length + tids.length * notReady T (Play.attempt st).state e' < l1.length + tids.length * notReady T st e) := by
  have hlen := h.len
  cases l1 with
  | nil =>
    rw [List.nil_append] at hb
    obtain ⟨rest, hd, hall⟩ := h.attempt hb
    have hr2 : 2 ≤ rest.length := by
      rw [hall] at h2
      simp only [List.length_append] at h2
      omega
    generalize Play.attempt st = r at hd
    cases hd with
    | load e' c A p B htid hp hle hr hoff hold hg =>
      right
      refine ⟨?_, l2, e', [], ?_, htid, ?_⟩
      · show sent e.tid (st.out ++ []) = _
        rw [List.append_nil]
      · show put st.sync e' l2 = _
        simp [put, hs]
      · show l2.length + tids.length * notReady T (after st l2 e' c []) e' < _
        rw [notReady_self T st l2 e' c [] (by rw [htid]; exact hp) hoff]
        have h1 : notReady T st e = 1 := by unfold notReady; rw [if_pos hold]
        rw [h1]
        rw [hb] at hlen
        simp only [List.length_cons, List.length_nil] at hlen ⊢
        omega
    | idle e' A p B htid hp hle hr => omega
    | same hr => omega
    | other e' A p B htid hp hr => omega
    | packet e' q rest' A p B htid hq hp hle hlt hex hgh =>
      left
      refine ⟨?_, _, _, rfl⟩
      show (sent e.tid (st.out ++ [(e.tid, q)])).length = _
      rw [sent_append, sent_self]
      simp
    | fin _ hr => omega
  | cons x l1 =>
    rw [List.cons_append] at hb
    obtain ⟨rest, hd, hall⟩ := h.attempt hb
    have hne : e.tid ≠ x.tid := h.head hb e (by simp)
    generalize Play.attempt st = r at hd
    right
    cases hd with
    | load e' c A p B htid hp hle hr hoff hold hg =>
      refine ⟨?_, l1, e, l2 ++ [e'], ?_, rfl, ?_⟩
      · show sent e.tid (st.out ++ []) = _
        rw [List.append_nil]
      · show put st.sync e' (l1 ++ e :: l2) = _
        simp [put, hs]
      · show l1.length + tids.length * notReady T (after st (l1 ++ e :: l2) e' c []) e < _
        rw [notReady_other T st _ e' e c [] (by rw [htid]; exact hne)]
        simp only [List.length_cons]
        omega
    | idle e' A p B htid hp hle hr hl hs' => rw [hs] at hs'; cases hs'
    | same hr hl hs' => rw [hs] at hs'; cases hs'
    | other e' A p B htid hp hr hl hs' hoff =>
      refine ⟨?_, l1, e, l2 ++ [e'], ?_, rfl, ?_⟩
      · show sent e.tid (st.out ++ []) = _
        rw [List.append_nil]
      · show put st.sync e' (l1 ++ e :: l2) = _
        simp [put, hs]
      · show l1.length + tids.length * notReady T (after st (l1 ++ e :: l2) e' _ []) e < _
        rw [notReady_other T st _ e' e _ [] (by rw [htid]; exact hne)]
        simp only [List.length_cons]
        omega
    | packet e' q rest' A p B htid hq hp hle hlt hex hgh =>
      refine ⟨?_, l1, e, l2 ++ [e'], ?_, rfl, ?_⟩
      · show sent e.tid (st.out ++ [(x.tid, q)]) = _
        rw [sent_append, sent_other (Ne.symm hne), List.append_nil]
      · show put st.sync e' (l1 ++ e :: l2) = _
        simp [put, hs]
      · show l1.length + tids.length * notReady T (after st (l1 ++ e :: l2) e' _ _) e < _
        rw [notReady_other T st _ e' e _ _ (by rw [htid]; exact hne)]
        simp only [List.length_cons]
        omega
    | fin _ hr =>
      refine ⟨rfl, l1, e, l2, rfl, rfl, ?_⟩
      show l1.length + tids.length * notReady T st e < _
      simp only [List.length_cons]
      omega

theorem turns {T tids skip} (k : Nat) {st : State} (h : Inv T st tids skip) (hs : st.sync = false) {l1 l2 : List Entry} {e : Entry} (hb : st.buf = l1 ++ e :: l2)
    (h2 : (skip e.tid).length + (sent e.tid st.out).length + 2 ≤ (packets (T e.tid).pages).length) :
    ((sent e.tid (tries (k + 1) st).1.out).length = (sent e.tid st.out).length + 1) ∨
    (sent e.tid (tries (k + 1) st).1.out = sent e.tid st.out ∧ ∃ l1' e' l2', (tries (k + 1) st).1.buf = l1' ++ e' :: l2' ∧ e'.tid = e.tid ∧
      l1'.length + tids.length * notReady T (tries (k + 1) st).1 e' < l1.length + tids.length * notReady T st e) := by
  induction k generalizing st l1 l2 e with
  | zero =>
    have ht := turn h hs hb h2
    unfold Play.tries
    cases ha : Play.attempt st with
    | stop st' r =>
      rw [ha] at ht
      rcases ht with ht | ht
      · exact Or.inl ht.1
      · exact Or.inr ht
    | again st' =>
      rw [ha] at ht
      rcases ht with ⟨_, _, _, h0⟩ | ht
      · cases h0
      · exact Or.inr ht
  | succ k ih =>
    have ht := turn h hs hb h2
    unfold Play.tries
    cases ha : Play.attempt st with
    | stop st' r =>
      rw [ha] at ht
      rcases ht with ht | ht
      · exact Or.inl ht.1
      · exact Or.inr ht
    | again st' =>
      rw [ha] at ht
      rcases ht with ⟨_, _, _, h0⟩ | ⟨h3, l1', e', l2', h4, h5, h6⟩
      · cases h0
      · simp only
        have hinv : Inv T st' tids skip ∧ st'.sync = false := by
          cases hb' : st.buf with
          | nil => rw [hb'] at hb; simp at hb
          | cons x b =>
            obtain ⟨rest, hd, hall⟩ := h.attempt hb'
            have h7 := h.does hb' hd hall
            have h8 := hd.keeps.2
            rw [ha] at h7 h8
            exact ⟨h7, h8.trans hs⟩
        have h3' : sent e.tid st'.out = sent e.tid st.out := h3
        have := ih hinv.1 hinv.2 h4 (by rw [h5, h3']; exact h2)
        rw [h5, h3'] at this
        rcases this with h9 | ⟨h9, l1'', e'', l2'', g1, g2, g3⟩
        · exact Or.inl h9
        · exact Or.inr ⟨h9, l1'', e'', l2'', g1, g2, Nat.lt_trans g3 h6⟩

theorem turns_prepare {T tids skip} {st : State} (h : Inv T st tids skip) (hs : st.sync = false) {l1 l2 : List Entry} {e : Entry} (hb : st.buf = l1 ++ e :: l2)
    (h2 : (skip e.tid).length + (sent e.tid st.out).length + 2 ≤ (packets (T e.tid).pages).length) :
    ((sent e.tid (prepareNext st).1.out).length = (sent e.tid st.out).length + 1) ∨
    (sent e.tid (prepareNext st).1.out = sent e.tid st.out ∧ ∃ l1' e' l2', (prepareNext st).1.buf = l1' ++ e' :: l2' ∧ e'.tid = e.tid ∧
      l1'.length + tids.length * notReady T (prepareNext st).1 e' < l1.length + tids.length * notReady T st e) := by
  unfold prepareNext
  rw [if_neg (by rw [hb]; simp)]
  have : ∃ k, st.buf.length = k + 1 := ⟨l1.length + l2.length, by rw [hb]; simp; omega⟩
  obtain ⟨k, hk⟩ := this
  rw [hk]
  exact turns k h hs hb h2

/-! ## Packets are never taken back -/

theorem Does.outs {T st e b done rest r} (h : Does T st e b done rest r) : ∃ l, r.state.out = st.out ++ l := by
  cases h with
  | same => exact ⟨[], (List.append_nil _).symm⟩
  | fin => exact ⟨[], (List.append_nil _).symm⟩
  | _ => exact ⟨_, rfl⟩

theorem Inv.triesOut {T tids skip} (k : Nat) {st : State} (h : Inv T st tids skip) : ∃ l, (Play.tries k st).1.out = st.out ++ l := by
  induction k generalizing st with
  | zero => exact ⟨[], (List.append_nil _).symm⟩
  | succ k ih =>
    unfold Play.tries
    cases hb : st.buf with
    | nil =>
      have : Play.attempt st = .stop st .finished := by unfold Play.attempt; rw [hb]
      rw [this]
      exact ⟨[], (List.append_nil _).symm⟩
    | cons e b =>
      obtain ⟨rest, hd, hall⟩ := h.attempt hb
      have h' := h.does hb hd hall
      obtain ⟨l, hl⟩ := hd.outs
      cases ha : Play.attempt st with
      | stop st' r =>
        rw [ha] at hl
        exact ⟨l, hl⟩
      | again st' =>
        rw [ha] at h' hl
        obtain ⟨l', hl'⟩ := ih h'
        exact ⟨l ++ l', by rw [← List.append_assoc, ← hl]; exact hl'⟩

theorem Inv.prepareOut {T st tids skip} (h : Inv T st tids skip) : ∃ l, (prepareNext st).1.out = st.out ++ l := by
  unfold prepareNext
  split
  · exact ⟨[], (List.append_nil _).symm⟩
  · exact h.triesOut _

theorem LiveInv.stepOut {w : World} {tids s skip} (h : LiveInv w.tracks w.viewer tids s skip) (ev : Event) : ∃ l, (w.step ev).viewer.out = w.viewer.out ++ l := by
  cases ev with
  | play => exact h.toInv.prepareOut
  | _ => exact ⟨[], (List.append_nil _).symm⟩

theorem LiveInv.runOut {w : World} {tids s skip} (h : LiveInv w.tracks w.viewer tids s skip) (evs : List Event) (hl : LegalRun w.tracks evs) :
    ∃ l, (w.run evs).viewer.out = w.viewer.out ++ l := by
  induction evs generalizing w with
  | nil => exact ⟨[], (List.append_nil _).symm⟩
  | cons ev evs ih =>
    have := h.step ev hl.1
    obtain ⟨l, hl1⟩ := h.stepOut ev
    obtain ⟨l', hl2⟩ := ih this.1 (by rw [this.2]; exact hl.2)
    exact ⟨l ++ l', by rw [← List.append_assoc, ← hl1]; exact hl2⟩

/-! ## Growth helps -/

theorem grow_packets {T : Nat → Track} (ev : Event) (hl : ev.Legal T) (t : Nat) (hT : Good (T t)) :
    (packets (T t).pages).length ≤ (packets (ev.grow t (T t)).pages).length := by
  rcases grow_cases T ev hl t hT with h1 | ⟨G, x, hg, h2, h3, h1⟩ | ⟨n, hn, h1⟩
  · rw [h1]; exact Nat.le_refl _
  · rw [h1, hg.all]; simp
  · rw [h1]; exact Nat.le_refl _

theorem grow_ready {T st tids s skip} (h : LiveInv T st tids s skip) (ev : Event) (hl : ev.Legal T) (e : Entry) (he : e ∈ st.buf) :
    notReady (fun t => ev.grow t (T t)) (look (fun t => ev.grow t (T t)) st) e ≤ notReady T st e := by
  obtain ⟨A, p, B, rest, hp⟩ := h.place e he
  rw [notReady_place hp]
  rcases grow_cases T ev hl e.tid hp.good with h1 | ⟨G, x, hg, h2, h3, h1⟩ | ⟨n, hn, h1⟩
  · rw [notReady_place (T := fun t => ev.grow t (T t)) (st := look (fun t => ev.grow t (T t)) st) (e := e) (by simp only [h1]; exact hp)]
    exact Nat.le_refl _
  · obtain ⟨p', B', hp', hlen⟩ := place_grow hp hg h2 h3
    rw [notReady_place (T := fun t => ev.grow t (T t)) (st := look (fun t => ev.grow t (T t)) st) (e := e) (by simp only [h1]; exact hp')]
    split
    · omega
    · rw [if_neg (by omega)]
      exact Nat.le_refl _
  · have hp' := place_clock hp hn
    rw [notReady_place (T := fun t => ev.grow t (T t)) (st := look (fun t => ev.grow t (T t)) st) (e := e) (by simp only [h1]; exact hp')]
    exact Nat.le_refl _

/-- An event other than a request. -/
theorem step_grow (w : World) (ev : Event) (h : ev ≠ .play) : w.step ev = ⟨fun t => ev.grow t (w.tracks t), look (fun t => ev.grow t (w.tracks t)) w.viewer⟩ := by
  cases ev with
  | play => exact absurd rfl h
  | _ => rfl

theorem asks_grow (ev : Event) (evs : List Event) (h : ev ≠ .play) : asks (ev :: evs) = asks evs := by
  cases ev with
  | play => exact absurd rfl h
  | _ => rfl

theorem LiveInv.stepSync {w : World} {tids s skip} (h : LiveInv w.tracks w.viewer tids s skip) (ev : Event) : (w.step ev).viewer.sync = w.viewer.sync := by
  cases ev with
  | play => exact h.toInv.prepare.2.2
  | _ => rfl

theorem LiveInv.runSync {w : World} {tids s skip} (h : LiveInv w.tracks w.viewer tids s skip) (evs : List Event) (hl : LegalRun w.tracks evs) :
    (w.run evs).viewer.sync = w.viewer.sync := by
  induction evs generalizing w with
  | nil => rfl
  | cons ev evs ih =>
    have := h.step ev hl.1
    exact (ih this.1 (by rw [this.2]; exact hl.2)).trans (h.stepSync ev)

/-- In async mode every track gets its turn. -/
theorem fair {w : World} {tids s skip} (h : LiveInv w.tracks w.viewer tids s skip) (hs : w.viewer.sync = false) {l1 l2 : List Entry} {e : Entry}
    (hb : w.viewer.buf = l1 ++ e :: l2)
    (h2 : (skip e.tid).length + (sent e.tid w.viewer.out).length + 2 ≤ (packets (w.tracks e.tid).pages).length) (evs : List Event) (hl : LegalRun w.tracks evs)
    (hn : l1.length + tids.length * notReady w.tracks w.viewer e < asks evs) :
    (sent e.tid w.viewer.out).length < (sent e.tid (w.run evs).viewer.out).length := by
  induction evs generalizing w l1 l2 e with
  | nil => simp [asks] at hn
  | cons ev evs ih =>
    have hst := h.step ev hl.1
    have hlr : LegalRun (w.step ev).tracks evs := by rw [hst.2]; exact hl.2
    by_cases hp : ev = .play
    · subst hp
      have ht := turns_prepare h.toInv hs hb h2
      rcases ht with ht | ⟨g1, l1', e', l2', g2, g3, g4⟩
      · obtain ⟨l, hl2⟩ := hst.1.runOut evs hlr
        have hl2' : (w.run (.play :: evs)).viewer.out = (prepareNext w.viewer).1.out ++ l := hl2
        rw [hl2', sent_append, List.length_append, ht]
        omega
      · have g1' : sent e.tid (w.step .play).viewer.out = sent e.tid w.viewer.out := g1
        have := ih hst.1 ((h.stepSync .play).trans hs) g2 (by rw [g3, g1']; exact h2) hlr (by
          have : asks (.play :: evs) = asks evs + 1 := rfl
          show l1'.length + tids.length * notReady w.tracks (prepareNext w.viewer).1 e' < asks evs
          omega)
        rw [g3, g1'] at this
        exact this
    · have hsg := step_grow w ev hp
      have hmem : e ∈ w.viewer.buf := by rw [hb]; simp
      have := ih (w := w.step ev) (l1 := l1) (l2 := l2) (e := e) hst.1 ((h.stepSync ev).trans hs) (by rw [hsg]; exact hb) (by
          have := grow_packets ev hl.1 e.tid (h.good e.tid (h.sub e hmem))
          rw [hsg]
          show (skip e.tid).length + (sent e.tid w.viewer.out).length + 2 ≤ (packets (ev.grow e.tid (w.tracks e.tid)).pages).length
          omega) hlr (by
          have := grow_ready h ev hl.1 e hmem
          rw [asks_grow ev evs hp] at hn
          rw [hsg]
          have := Nat.mul_le_mul_left tids.length this
          simp only
          omega)
      rw [show (w.run (ev :: evs)) = (w.step ev).run evs from rfl]
      refine Nat.lt_of_le_of_lt (Nat.le_of_eq ?_) this
      rw [hsg]
      rfl

/-! ## In sync mode something comes when every track has something -/

theorem sum_le {α : Type} (f g : α → Nat) (l : List α) (h : ∀ x ∈ l, f x ≤ g x) : (l.map f).sum ≤ (l.map g).sum := by
  induction l with
  | nil => simp
  | cons a l ih =>
    have := h a (by simp)
    have := ih (fun x hx => h x (by simp [hx]))
    simp only [List.map_cons, List.sum_cons]
    omega

theorem sync_less {T st tids skip} (h : Inv T st tids skip) (hs : st.sync = true) {e : Entry} {b : List Entry} (hb : st.buf = e :: b)
    (h2 : ∀ t ∈ tids, (skip t).length + (sent t st.out).length + 2 ≤ (packets (T t).pages).length) :
    (prepareNext st).1.out.length = st.out.length + 1 ∨
    ((prepareNext st).1.out = st.out ∧ (∃ x l, (prepareNext st).1.buf = x :: l) ∧ ((prepareNext st).1.buf.map (notReady T (prepareNext st).1)).sum < (st.buf.map (notReady T st)).sum) := by
  rw [h.once hb (Or.inl hs)]
  obtain ⟨rest, hd, hall⟩ := h.attempt hb
  have hne := h.head hb
  have hr2 : 2 ≤ rest.length := by
    have := h2 e.tid (h.sub e (by rw [hb]; simp))
    rw [hall] at this
    simp only [List.length_append] at this
    omega
  generalize Play.attempt st = r at hd
  cases hd with
  | load e' c A p B htid hp hle hr hoff hold hg =>
    right
    have hne' : ∀ x ∈ b, x.tid ≠ e'.tid := by rw [htid]; exact hne
    have hperm := put_perm st.sync e' b hne'
    refine ⟨List.append_nil _, ?_, ?_⟩
    · show ∃ x l, put st.sync e' b = x :: l
      cases hq : put st.sync e' b with
      | nil => rw [hq] at hperm; have := hperm.length_eq; simp at this
      | cons x l => exact ⟨x, l, rfl⟩
    · show ((put st.sync e' b).map (notReady T (after st b e' c []))).sum < _
      rw [sum_perm (hperm.map _), hb, List.map_cons, List.map_cons, List.sum_cons, List.sum_cons, notReady_self T st b e' c [] (by rw [htid]; exact hp) hoff]
      have h1 : notReady T st e = 1 := by unfold notReady; rw [if_pos hold]
      rw [h1, List.map_congr_left (fun x hx => notReady_other T st b e' x c [] (hne' x hx))]
      omega
  | idle e' A p B htid hp hle hr => omega
  | same hr => omega
  | other e' A p B htid hp hr => omega
  | packet e' q rest' A p B htid hq hp hle hlt hex hgh =>
    left
    show (st.out ++ [(e.tid, q)]).length = _
    simp
  | fin _ hr => omega

theorem progress {w : World} {tids s skip} (h : LiveInv w.tracks w.viewer tids s skip) (hs : w.viewer.sync = true) {e : Entry} {b : List Entry} (hb : w.viewer.buf = e :: b)
    (h2 : ∀ t ∈ tids, (skip t).length + (sent t w.viewer.out).length + 2 ≤ (packets (w.tracks t).pages).length) (evs : List Event) (hl : LegalRun w.tracks evs)
    (hn : (w.viewer.buf.map (notReady w.tracks w.viewer)).sum < asks evs) : w.viewer.out.length < (w.run evs).viewer.out.length := by
  induction evs generalizing w e b with
  | nil => simp [asks] at hn
  | cons ev evs ih =>
    have hst := h.step ev hl.1
    have hlr : LegalRun (w.step ev).tracks evs := by rw [hst.2]; exact hl.2
    by_cases hp : ev = .play
    · subst hp
      rcases sync_less h.toInv hs hb h2 with ht | ⟨g1, ⟨x, l, g2⟩, g3⟩
      · obtain ⟨l, hl2⟩ := hst.1.runOut evs hlr
        have hl2' : (w.run (.play :: evs)).viewer.out = (prepareNext w.viewer).1.out ++ l := hl2
        rw [hl2', List.length_append, ht]
        omega
      · have g1' : (w.step .play).viewer.out = w.viewer.out := g1
        have := ih (w := w.step .play) hst.1 ((h.stepSync .play).trans hs) g2 (by rw [g1']; exact h2) hlr (by
          have : asks (.play :: evs) = asks evs + 1 := rfl
          show ((prepareNext w.viewer).1.buf.map (notReady w.tracks (prepareNext w.viewer).1)).sum < asks evs
          omega)
        rw [g1'] at this
        exact this
    · have hsg := step_grow w ev hp
      have := ih (w := w.step ev) hst.1 ((h.stepSync ev).trans hs) (by rw [hsg]; exact hb) (by
          intro t ht
          have := grow_packets ev hl.1 t (h.good t ht)
          have h3 := h2 t ht
          rw [hsg]
          show (skip t).length + (sent t w.viewer.out).length + 2 ≤ (packets (ev.grow t (w.tracks t)).pages).length
          omega) hlr (by
          have := sum_le _ _ w.viewer.buf (fun x hx => grow_ready h ev hl.1 x hx)
          rw [asks_grow ev evs hp] at hn
          rw [hsg]
          exact Nat.lt_of_le_of_lt this hn)
      rw [show (w.run (ev :: evs)) = (w.step ev).run evs from rfl]
      refine Nat.lt_of_le_of_lt (Nat.le_of_eq ?_) this
      rw [hsg]
      rfl

end Verif.Play
