import Verif.Totals.Spec

/-! # Lemmas about the totals of the server -/
namespace Verif.Totals

open Verif Spec

/-! ## Maps -/

theorem find_put {α : Type} [Inhabited α] : ∀ (l : List (Bytes × α)) (k : Bytes) (v : α) (j : Bytes), find (put l k v) j = if j = k then v else find l j
  | [], k, v, j => by
    by_cases h : j = k
    · subst h; simp [put, find]
    · simp [put, find, h, Ne.symm h]
  | p :: l, k, v, j => by
    have ih := find_put l k v j
    unfold put
    by_cases hp : p.1 = k
    · rw [if_pos hp]
      by_cases h : j = k
      · subst h; simp [find]
      · have : (p.1 == j) = false := by rw [hp]; simpa using Ne.symm h
        have h2 : (k == j) = false := by simpa using Ne.symm h
        simp [find, h, h2, this]
    · rw [if_neg hp]
      by_cases hj : p.1 = j
      · have : ¬ j = k := fun h => hp (hj.trans h)
        simp [find, hj, this]
      · have h1 : (p.1 == j) = false := by simpa using hj
        have h2 : find (p :: put l k v) j = find (put l k v) j := by simp [find, h1]
        have h3 : find (p :: l) j = find l j := by simp [find, h1]
        rw [h2, h3, ih]

theorem keys_put {α : Type} : ∀ (l : List (Bytes × α)) (k : Bytes) (v : α),
    (put l k v).map Prod.fst = if k ∈ l.map Prod.fst then l.map Prod.fst else l.map Prod.fst ++ [k]
  | [], k, v => by simp [put]
  | p :: l, k, v => by
    unfold put
    by_cases hp : p.1 = k
    · simp [hp]
    · rw [if_neg hp]
      have := keys_put l k v
      simp only [List.map_cons, this, List.mem_cons, Ne.symm hp, false_or]
      split <;> rfl

theorem nodup_put {α : Type} {l : List (Bytes × α)} (k : Bytes) (v : α) (h : (l.map Prod.fst).Nodup) : ((put l k v).map Prod.fst).Nodup := by
  rw [keys_put]
  split
  · exact h
  next hk => exact List.nodup_append.mpr ⟨h, by simp, fun a ha b hb => by simp at hb; subst hb; exact fun he => hk (he ▸ ha)⟩

theorem find_filter {α : Type} [Inhabited α] (P : Bytes × α → Bool) : ∀ (l : List (Bytes × α)) (_ : (l.map Prod.fst).Nodup) (j : Bytes),
    find (l.filter P) j = find l j ∨ find (l.filter P) j = default ∧ P (j, find l j) = false
  | [], _, j => .inl rfl
  | p :: l, h, j => by
    have hn := List.nodup_cons.mp (show (p.1 :: l.map Prod.fst).Nodup from h)
    have ih := find_filter P l hn.2 j
    by_cases hj : p.1 = j
    · subst hj
      have h1 : find (p :: l) p.1 = p.2 := by simp [find]
      by_cases hP : P p = true
      · left
        simp [List.filter, hP, find]
      · right
        have hP : P p = false := by simpa using hP
        refine ⟨?_, by rw [h1]; exact hP⟩
        rw [List.filter_cons_of_neg (by simp [hP])]
        have : (l.filter P).find? (fun q => q.1 == p.1) = none := by
          rw [List.find?_eq_none]
          intro q hq hc
          have hq := (List.mem_filter.mp hq).1
          exact hn.1 (by simp at hc; exact hc ▸ List.mem_map_of_mem hq)
        simp [find, this]
    · have h1 : (p.1 == j) = false := by simpa using hj
      have h3 : find (p :: l) j = find l j := by simp [find, h1]
      rw [h3]
      by_cases hP : P p = true
      · rw [List.filter_cons_of_pos hP]
        have : find (p :: l.filter P) j = find (l.filter P) j := by simp [find, h1]
        rw [this]
        exact ih
      · rw [List.filter_cons_of_neg hP]
        exact ih

/-! ## The history -/

theorem current_snoc (sid : Bytes) (evs : List Ev) (e : Ev) : current sid (evs ++ [e]) =
    match e with | .rep r => if r.sid = sid then some r else current sid evs | .fin i => if i = sid then none else current sid evs | _ => current sid evs := by
  unfold current
  rw [List.foldl_append]
  rfl

theorem opening_snoc (sid : Bytes) (evs : List Ev) (e : Ev) : opening sid (evs ++ [e]) =
    match e with
    | .rep r => if r.sid = sid then (match opening sid evs with | none => some r | some q => some q) else opening sid evs
    | .fin i => if i = sid then none else opening sid evs
    | _ => opening sid evs := by
  unfold opening
  rw [List.foldl_append]
  rfl

theorem latest_snoc (sid : Bytes) (evs : List Ev) (e : Ev) : latest sid (evs ++ [e]) =
    match e with | .rep r => if r.sid = sid then some r else latest sid evs | _ => latest sid evs := by
  unfold latest
  rw [List.foldl_append]
  rfl

theorem clock_snoc (evs : List Ev) (e : Ev) : clock (evs ++ [e]) = match e with | .tick t => t | _ => clock evs := by
  unfold clock
  rw [List.foldl_append]
  rfl

theorem run_snoc (evs : List Ev) (e : Ev) : run (evs ++ [e]) = step (run evs) e := by
  unfold run
  rw [List.foldl_append]
  rfl

theorem orderly_snoc {evs : List Ev} {e : Ev} (h : Orderly (evs ++ [e])) : Orderly evs ∧ Expected evs e :=
  ⟨fun pre e' post he => h pre e' (post ++ [e]) (by rw [he]; simp), h evs e [] rfl⟩

/-- Induction over histories from their end. -/
theorem snoc_induction {P : List Ev → Prop} (h0 : P []) (hs : ∀ evs e, P evs → P (evs ++ [e])) (evs : List Ev) : P evs := by
  have : ∀ l : List Ev, P l.reverse := by
    intro l
    induction l with
    | nil => exact h0
    | cons e l ih => rw [List.reverse_cons]; exact hs _ _ ih
  have h := this evs.reverse
  rwa [List.reverse_reverse] at h

/-- The fold of `current` from another start. -/
def curFrom (c : Option Report) (sid : Bytes) (evs : List Ev) : Option Report :=
  evs.foldl (fun c e => match e with | .rep r => if r.sid = sid then some r else c | .fin i => if i = sid then none else c | _ => c) c

theorem untouched {sid : Bytes} {r : Report} (hr : r.sid = sid) : ∀ (l : List Ev), l.any (about sid) = false → ∀ c,
    curFrom c sid l = c ∧ goesOn sid l = false ∧ goesOn sid (l ++ [.rep r]) = true
  | [], _, c => ⟨rfl, rfl, by simp [goesOn, hr]⟩
  | e :: l, h, c => by
    have h := h
    rw [List.any_cons, Bool.or_eq_false_iff] at h
    have ih := untouched hr l h.2 c
    cases e with
    | rep q =>
      have hq : ¬ q.sid = sid := by simpa [about] using h.1
      refine ⟨?_, ?_, ?_⟩
      · unfold curFrom; rw [List.foldl_cons]; simp only [if_neg hq]; exact ih.1
      · simp only [goesOn, if_neg hq]; exact ih.2.1
      · simp only [List.cons_append, goesOn, if_neg hq]; exact ih.2.2
    | fin i =>
      have hq : ¬ i = sid := by simpa [about] using h.1
      refine ⟨?_, ?_, ?_⟩
      · unfold curFrom; rw [List.foldl_cons]; simp only [if_neg hq]; exact ih.1
      · simp only [goesOn, if_neg hq]; exact ih.2.1
      · simp only [List.cons_append, goesOn, if_neg hq]; exact ih.2.2
    | tick t => exact ih
    | sweep => exact ih

theorem touched {sid : Bytes} {x : List Ev} : ∀ (l : List Ev), l.any (about sid) = true → ∀ c c',
    curFrom c sid l = curFrom c' sid l ∧ goesOn sid (l ++ x) = goesOn sid l
  | [], h, _, _ => by simp at h
  | e :: l, h, c, c' => by
    rw [List.any_cons, Bool.or_eq_true] at h
    cases e with
    | rep q =>
      by_cases hq : q.sid = sid
      · refine ⟨?_, by simp [goesOn, hq]⟩
        unfold curFrom; rw [List.foldl_cons, List.foldl_cons]; simp only [if_pos hq]
      · have ih := touched (x := x) l (h.resolve_left (by simpa [about] using hq)) c c'
        refine ⟨?_, ?_⟩
        · unfold curFrom; rw [List.foldl_cons, List.foldl_cons]; simp only [if_neg hq]; exact ih.1
        · simp only [List.cons_append, goesOn, if_neg hq]; exact ih.2
    | fin i =>
      by_cases hq : i = sid
      · refine ⟨?_, by simp [goesOn, hq]⟩
        unfold curFrom; rw [List.foldl_cons, List.foldl_cons]; simp only [if_pos hq]
      · have ih := touched (x := x) l (h.resolve_left (by simpa [about] using hq)) c c'
        refine ⟨?_, ?_⟩
        · unfold curFrom; rw [List.foldl_cons, List.foldl_cons]; simp only [if_neg hq]; exact ih.1
        · simp only [List.cons_append, goesOn, if_neg hq]; exact ih.2
    | tick t => exact touched l (h.resolve_left (by simp [about])) c c'
    | sweep => exact touched l (h.resolve_left (by simp [about])) c c'

theorem goesOn_other {sid : Bytes} {r : Report} (hr : ¬ r.sid = sid) : ∀ (l : List Ev), goesOn sid (l ++ [.rep r]) = goesOn sid l
  | [] => by simp [goesOn, hr]
  | .rep q :: l => by simp only [List.cons_append, goesOn]; rw [goesOn_other hr l]
  | .fin i :: l => by simp only [List.cons_append, goesOn]; rw [goesOn_other hr l]
  | .tick t :: l => by simp only [List.cons_append, goesOn]; rw [goesOn_other hr l]
  | .sweep :: l => by simp only [List.cons_append, goesOn]; rw [goesOn_other hr l]

theorem goesOn_end (sid : Bytes) {e : Ev} (he : ∀ r, e ≠ .rep r) : ∀ (l : List Ev), goesOn sid (l ++ [e]) = goesOn sid l
  | [] => by
    cases e with
    | rep r => exact absurd rfl (he r)
    | fin i => simp [goesOn]
    | tick t => simp [goesOn]
    | sweep => simp [goesOn]
  | .rep q :: l => by simp only [List.cons_append, goesOn]; rw [goesOn_end sid he l]
  | .fin i :: l => by simp only [List.cons_append, goesOn]; rw [goesOn_end sid he l]
  | .tick t :: l => by simp only [List.cons_append, goesOn]; rw [goesOn_end sid he l]
  | .sweep :: l => by simp only [List.cons_append, goesOn]; rw [goesOn_end sid he l]

theorem final_end (w : Report → Nat) {e : Ev} (he : ∀ r, e ≠ .rep r) : ∀ (l : List Ev), final w (l ++ [e]) = final w l
  | [] => by
    cases e with
    | rep r => exact absurd rfl (he r)
    | fin i => simp [final]
    | tick t => simp [final]
    | sweep => simp [final]
  | .rep q :: l => by simp only [List.cons_append, final]; rw [final_end w he l, goesOn_end _ he]
  | .fin i :: l => by simp only [List.cons_append, final]; rw [final_end w he l]
  | .tick t :: l => by simp only [List.cons_append, final]; rw [final_end w he l]
  | .sweep :: l => by simp only [List.cons_append, final]; rw [final_end w he l]

/-- The weight of the last report, if there is one. -/
def worth (w : Report → Nat) : Option Report → Nat
  | none => 0
  | some q => w q

theorem final_rep (w : Report → Nat) (r : Report) : ∀ (l : List Ev), final w (l ++ [.rep r]) + worth w (curFrom none r.sid l) = final w l + w r
  | [] => by simp [final, goesOn, curFrom, worth]
  | .rep q :: l => by
    have ih := final_rep w r l
    simp only [List.cons_append, final]
    by_cases hq : q.sid = r.sid
    · have hc : curFrom none r.sid (.rep q :: l) = curFrom (some q) r.sid l := by
        unfold curFrom; rw [List.foldl_cons]; simp only [if_pos hq]
      rw [hc]
      by_cases ht : l.any (about r.sid) = true
      · have h := touched (x := [.rep r]) l ht (some q) none
        rw [h.1, hq, h.2]
        omega
      · have ht : l.any (about r.sid) = false := by simpa using ht
        have h := untouched (r := r) rfl l ht (some q)
        have h' := untouched (r := r) rfl l ht none
        rw [h.1, hq, h.2.1, h.2.2, if_pos rfl, if_neg (by decide)]
        rw [h'.1] at ih
        simp only [worth] at ih ⊢
        omega
    · have hc : curFrom none r.sid (.rep q :: l) = curFrom none r.sid l := by
        unfold curFrom; rw [List.foldl_cons]; simp only [if_neg hq]
      rw [hc, goesOn_other (fun h => hq h.symm) l]
      omega
  | .fin i :: l => by
    have ih := final_rep w r l
    have hc : curFrom none r.sid (.fin i :: l) = curFrom none r.sid l := by
      unfold curFrom
      rw [List.foldl_cons]
      by_cases h : i = r.sid
      · simp only [if_pos h]
      · simp only [if_neg h]
    rw [hc]
    exact ih
  | .tick t :: l => final_rep w r l
  | .sweep :: l => final_rep w r l

theorem final_snoc (w : Report → Nat) (r : Report) (l : List Ev) : final w (l ++ [.rep r]) + worth w (current r.sid l) = final w l + w r := final_rep w r l

/-! ## What a pass leaves alone -/

/-- All but the streams and the seconds. -/
def Frame (s t : State) : Prop :=
  t.sessions = s.sessions ∧ t.boot = s.boot ∧ t.first = s.first ∧ t.down = s.down ∧ t.up = s.up ∧ t.otherDown = s.otherDown ∧ t.otherUp = s.otherUp ∧
    t.count = s.count ∧ t.access = s.access

theorem visit_frame (s : State) (p : Bytes × Sess) : Frame s (visit s p) := by
  unfold visit
  dsimp only
  by_cases h1 : p.2.last.stream = []
  · simp only [h1]
    by_cases h2 : p.2.stop < cutoff s.boot
    · simp [h2, Frame]
    · simp [h2, Frame]
  · by_cases h2 : p.2.stop < cutoff s.boot
    · simp [h1, h2, Frame]
    · by_cases h3 : since s.boot (delay (kindOf p.1)) p.2 = true
      · by_cases h4 : kindOf p.1 = .viewer
        · simp only [h4] at h3; simp [h1, h2, h3, h4, Frame]
        · simp [h1, h2, h3, h4, Frame]
      · by_cases h4 : kindOf p.1 = .viewer
        · simp only [h4] at h3; simp [h1, h2, h3, h4, Frame]
        · simp [h1, h2, h3, h4, Frame]

theorem frame_trans {s t u : State} (h1 : Frame s t) (h2 : Frame t u) : Frame s u := by
  obtain ⟨a1, a2, a3, a4, a5, a6, a7, a8, a9⟩ := h1
  obtain ⟨b1, b2, b3, b4, b5, b6, b7, b8, b9⟩ := h2
  exact ⟨b1.trans a1, b2.trans a2, b3.trans a3, b4.trans a4, b5.trans a5, b6.trans a6, b7.trans a7, b8.trans a8, b9.trans a9⟩

theorem visits_frame (l : List (Bytes × Sess)) : ∀ s : State, Frame s (l.foldl visit s) := by
  induction l with
  | nil => exact fun s => ⟨rfl, rfl, rfl, rfl, rfl, rfl, rfl, rfl, rfl⟩
  | cons p l ih =>
    intro s
    rw [List.foldl_cons]
    exact frame_trans (visit_frame s p) (ih (visit s p))

theorem sweep_sessions (s : State) : (sweep s).sessions = s.sessions.filter (fun p => cutoff s.boot ≤ p.2.stop) ∧ (sweep s).boot = s.boot ∧
    (sweep s).first = false ∧ (sweep s).count = s.count ∧ (sweep s).access = s.access ∧
    (sweep s).down = (if s.first = true then 0 else s.down) ∧ (sweep s).up = (if s.first = true then 0 else s.up) ∧
    (sweep s).otherDown = (if s.first = true then 0 else s.otherDown) ∧ (sweep s).otherUp = (if s.first = true then 0 else s.otherUp) := by
  have hb : (begun s).sessions = s.sessions ∧ (begun s).boot = s.boot ∧ (begun s).first = false ∧ (begun s).count = s.count ∧ (begun s).access = s.access ∧
      (begun s).down = (if s.first = true then 0 else s.down) ∧ (begun s).up = (if s.first = true then 0 else s.up) ∧
      (begun s).otherDown = (if s.first = true then 0 else s.otherDown) ∧ (begun s).otherUp = (if s.first = true then 0 else s.otherUp) := by
    unfold begun
    by_cases h : s.first = true
    · simp [h]
    · simp [h]
  obtain ⟨c1, c2, c3, c4, c5, c6, c7, c8, c9⟩ := hb
  unfold sweep
  dsimp only
  have hv := visits_frame s.sessions (zeroed (begun s))
  generalize List.foldl visit _ s.sessions = t at hv ⊢
  obtain ⟨b1, b2, b3, b4, b5, b6, b7, b8, b9⟩ := hv
  refine ⟨?_, b2.trans c2, b3.trans c3, b8.trans c4, b9.trans c5, b4.trans c6, b5.trans c7, b6.trans c8, b7.trans c9⟩
  rw [show t.sessions = s.sessions from b1.trans c1, show t.boot = s.boot from b2.trans c2]

/-! ## What a report changes -/

theorem last_nil {x : Sess} (h : x.log = []) : x.last = {} ∧ x.stop = 0 := by simp [Sess.last, Sess.stop, h]

theorem keep_head {boot : Nat} {r : Report} {x : Sess} (h : cutoff boot ≤ r.now) : ∃ rest, keep boot r x.log =
    (r.now, { time := r.time, first := if x.last.first = 0 then r.now else x.last.first, down := r.down, up := r.up, stream := r.stream }) :: rest := by
  unfold keep Sess.last
  cases hl : x.log with
  | nil => exact ⟨[], by simp [h]⟩
  | cons p l =>
    dsimp only
    by_cases hp : p.1 = r.now
    · rw [if_pos hp]
      exact ⟨_, by rw [List.filter_cons_of_pos (by simpa using h)]; rfl⟩
    · rw [if_neg hp]
      exact ⟨_, by rw [List.filter_cons_of_pos (by simpa using h)]; rfl⟩

/-- All but the streams, the sessions and the counts. -/
theorem started_rest (s : State) (k : Kind) (old new : Entry) : (started s k old new).sessions = s.sessions ∧ (started s k old new).boot = s.boot ∧
    (started s k old new).first = s.first ∧ (started s k old new).down = s.down ∧ (started s k old new).up = s.up ∧
    (started s k old new).otherDown = s.otherDown ∧ (started s k old new).otherUp = s.otherUp ∧ (started s k old new).access = s.access ∧
    (started s k old new).count = if old.first = 0 ∧ new.stream ≠ [] then bump s.count k else s.count := by
  unfold started
  split <;> simp

theorem stream_frame (s : State) (k : Kind) (f : Option Bool) (n : Nat) (old new : Entry) : Frame s (stream s k f n old new) := by
  unfold stream
  split
  · simp [Frame]
  · exact ⟨rfl, rfl, rfl, rfl, rfl, rfl, rfl, rfl, rfl⟩

theorem server_rest (s : State) (r : Report) (x : Sess) (old new : Entry) : (server s r x old new).1.sessions = s.sessions ∧ (server s r x old new).1.boot = s.boot ∧
    (server s r x old new).1.first = s.first ∧ (server s r x old new).1.access = s.access ∧ (server s r x old new).1.count = s.count := by
  unfold server
  split
  · simp
  · dsimp only
    split <;> simp

theorem server_counts (s : State) (r : Report) (x : Sess) {old new : Entry} (hd : old.down ≤ new.down) (hu : old.up ≤ new.up) :
    (server s r x old new).2 = some (x.free.getD r.free) ∧
    (server s r x old new).1.down = s.down + (if x.free.getD r.free = true then 0 else (new.down : Int) - old.down) ∧
    (server s r x old new).1.up = s.up + (if x.free.getD r.free = true then 0 else (new.up : Int) - old.up) ∧
    (server s r x old new).1.otherDown = s.otherDown + (if x.free.getD r.free = true then (new.down : Int) - old.down else 0) ∧
    (server s r x old new).1.otherUp = s.otherUp + (if x.free.getD r.free = true then (new.up : Int) - old.up else 0) := by
  unfold server
  rw [if_neg (by omega)]
  dsimp only
  by_cases h : x.free.getD r.free = true
  · simp only [h]; simp
  · simp only [h]; simp

end Verif.Totals
