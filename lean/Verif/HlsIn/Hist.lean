import Verif.HlsIn.Load

/-!
# Lemmas about histories of a live playlist
-/

namespace Verif.HlsIn
open Verif Spec

/-- Entries with consecutive numbers. -/
def Run : Nat → List Entry → Prop
  | _, [] => True
  | a, x :: t => x.num = a ∧ Run (a + 1) t

theorem run_append : ∀ (u v : List Entry) (a : Nat), Run a (u ++ v) ↔ Run a u ∧ Run (a + u.length) v := by
  intro u
  induction u with
  | nil => intro v a; simp [Run]
  | cons x t ih =>
    intro v a
    simp only [List.cons_append, Run, ih, List.length_cons]
    rw [show a + 1 + t.length = a + (t.length + 1) from by omega]
    exact and_assoc.symm

theorem run_mem : ∀ (l : List Entry) (a : Nat), Run a l → ∀ x ∈ l, a ≤ x.num ∧ x.num < a + l.length := by
  intro l
  induction l with
  | nil => intro a _ x hx; cases hx
  | cons y t ih =>
    intro a h x hx
    simp only [Run] at h
    simp only [List.length_cons]
    rcases List.mem_cons.1 hx with rfl | hx
    · omega
    · have := ih _ h.2 x hx
      omega

theorem run_has : ∀ (l : List Entry) (a n : Nat), Run a l → a ≤ n → n < a + l.length → ∃ x ∈ l, x.num = n := by
  intro l
  induction l with
  | nil => intro a n _ h1 h2; simp at h2; omega
  | cons y t ih =>
    intro a n h h1 h2
    simp only [Run] at h
    simp only [List.length_cons] at h2
    by_cases hn : n = a
    · exact ⟨y, by simp, by omega⟩
    · obtain ⟨x, hx, e⟩ := ih (a + 1) n h.2 (by omega) (by omega)
      exact ⟨x, by simp [hx], e⟩

theorem run_dropWhile : ∀ (l : List Entry) (a c : Nat), Run a l → l.dropWhile (fun x => x.num < c) = l.drop (c - a) := by
  intro l
  induction l with
  | nil => intro a c _; simp
  | cons y t ih =>
    intro a c h
    simp only [Run] at h
    rw [List.dropWhile_cons]
    by_cases hc : y.num < c
    · rw [if_pos (by simpa using hc), ih (a + 1) c h.2, show c - a = (c - (a + 1)) + 1 from by omega]
      rfl
    · rw [if_neg (by simpa using hc), show c - a = 0 from by omega]
      rfl

theorem dropWhile_pre : ∀ (p r : List Entry) (c : Nat), (∀ x ∈ p, x.num < c) →
    (p ++ r).dropWhile (fun x => x.num < c) = r.dropWhile (fun x => x.num < c) := by
  intro p
  induction p with
  | nil => intro r c _; rfl
  | cons y t ih =>
    intro r c h
    rw [List.cons_append, List.dropWhile_cons, if_pos (by simpa using h y (by simp))]
    exact ih r c (fun x hx => h x (by simp [hx]))

theorem run_split (l : List Entry) (a i : Nat) (h : Run a l) (hi : i ≤ l.length) : Run a (l.take i) ∧ Run (a + i) (l.drop i) := by
  have := (run_append (l.take i) (l.drop i) a).1 (by rw [List.take_append_drop]; exact h)
  rw [List.length_take, Nat.min_eq_left hi] at this
  exact this

theorem run_segs (e : Env) : ∀ (l : List Item) (num : Nat) dur rng key, Run (num + 1) ((segs num dur rng key l).map (toEntry e)) := by
  intro l
  induction l with
  | nil => intro num dur rng key; trivial
  | cons i t ih =>
    intro num dur rng key
    cases i with
    | seg uri => exact ⟨rfl, ih _ _ _ _⟩
    | inf t => exact ih _ _ _ _
    | range a b => exact ih _ _ _ _
    | key a b c => exact ih _ _ _ _
    | note t => exact ih _ _ _ _

/-- The numbers ascend. -/
def Asc (l : List Entry) : Prop := l.Pairwise (fun x y => x.num < y.num)

theorem asc_snoc {l : List Entry} {x : Entry} (h : Asc l) (hx : ∀ y ∈ l, y.num < x.num) : Asc (l ++ [x]) := by
  unfold Asc
  rw [List.pairwise_append]
  refine ⟨h, List.pairwise_singleton _ _, ?_⟩
  intro a ha b hb
  rw [List.mem_singleton] at hb
  subst hb
  exact hx a ha

theorem hand_spec (ok : Entry → Bool) (base : Nat) : ∀ (n i : Nat) (t : List Entry) (s : Nat × List Entry), Run (base + i) t →
    s.1 < base + i → Asc s.2 → (∀ x ∈ s.2, x.num ≤ s.1) →
    Asc (hand ok base n i t s).2 ∧ (∀ x ∈ (hand ok base n i t s).2, x.num ≤ (hand ok base n i t s).1)
      ∧ s.1 ≤ (hand ok base n i t s).1
      ∧ ((hand ok base n i t s).1 = s.1 ∨ (hand ok base n i t s).1 < base + i + t.length)
      ∧ (∀ x ∈ (hand ok base n i t s).2, x ∈ s.2 ∨ x ∈ t) ∧ (∀ x ∈ s.2, x ∈ (hand ok base n i t s).2) := by
  intro n
  induction n with
  | zero =>
    intro i t s hr h1 h2 h3
    exact ⟨h2, h3, Nat.le_refl _, Or.inl rfl, fun x hx => Or.inl hx, fun x hx => hx⟩
  | succ n ih =>
    intro i t s hr h1 h2 h3
    cases t with
    | nil => exact ⟨h2, h3, Nat.le_refl _, Or.inl rfl, fun x hx => Or.inl hx, fun x hx => hx⟩
    | cons x t =>
      simp only [Run] at hr
      simp only [hand, List.length_cons]
      by_cases hk : ok x = true
      · rw [if_pos hk]
        obtain ⟨a, b, c, d, f, g⟩ := ih (i + 1) t (base + i, s.2 ++ [x]) (by rw [← Nat.add_assoc]; exact hr.2) (by simp only; omega)
          (asc_snoc h2 (fun y hy => by have := h3 y hy; omega))
          (by
            intro y hy
            rcases List.mem_append.1 hy with hy | hy
            · have := h3 y hy; simp only; omega
            · rw [List.mem_singleton] at hy; subst hy; simp only; omega)
        simp only at c d
        refine ⟨a, b, by omega, by omega, ?_, fun y hy => g y (by simp [hy])⟩
        intro y hy
        rcases f y hy with h | h
        · rcases List.mem_append.1 h with h | h
          · exact Or.inl h
          · exact Or.inr (by simp at h; simp [h])
        · exact Or.inr (by simp [h])
      · rw [if_neg hk]
        obtain ⟨a, b, c, d, f, g⟩ := ih (i + 1) t s (by rw [← Nat.add_assoc]; exact hr.2) (by omega) h2 h3
        refine ⟨a, b, c, by omega, ?_, g⟩
        intro y hy
        rcases f y hy with h | h
        · exact Or.inl h
        · exact Or.inr (by simp [h])

theorem hand_all {ok : Entry → Bool} (hok : ∀ x, ok x = true) (base : Nat) : ∀ (n i : Nat) (t : List Entry) (s : Nat × List Entry),
    (hand ok base n i t s).2 = s.2 ++ t.take n
      ∧ (hand ok base n i t s).1 = if t.take n = [] then s.1 else base + i + (t.take n).length - 1 := by
  intro n
  induction n with
  | zero => intro i t s; simp [hand]
  | succ n ih =>
    intro i t s
    cases t with
    | nil => simp [hand]
    | cons x t =>
      simp only [hand, List.take_succ_cons]
      rw [if_pos (hok x)]
      obtain ⟨a, b⟩ := ih (i + 1) t (base + i, s.2 ++ [x])
      refine ⟨by rw [a]; simp, ?_⟩
      rw [b]
      show _ = base + i + (x :: t.take n).length - 1
      split
      · rename_i h0
        rw [h0]
        simp
      · simp only [List.length_cons]
        omega

/-- The operation of an event. -/
def opOf : Event Entry → Op
  | .list seq l => .reload (text seq l)
  | .read ok n => .parse ok n

/-- Numbers of the entries: some that are no longer listed, then consecutive ones up to the last. -/
def Shape (p : Pls) : Prop :=
  ∃ pre r a, p.entries = pre ++ r ∧ (∀ x ∈ pre, x.num ≤ p.first) ∧ Run a r ∧ 1 ≤ a ∧ a ≤ p.first + 1 ∧ a + r.length = p.last + 1
    ∧ p.first < p.last

/-- The invariant. -/
structure Inv (e : Env) (evs : List (Event Entry)) (m : Nat) (s : In) : Prop where
  keys : KeysOk e s.pls.keys
  first : s.pls.first = m
  shape : (s.pls.entries = [] ∧ s.pls.last = 0) ∨ Shape s.pls
  parsed : s.parsed ≤ s.pls.last
  asc : Asc s.handed
  le : ∀ x ∈ s.handed, x.num ≤ s.parsed
  from_ : ∀ x, x ∈ s.pls.entries ∨ x ∈ s.handed → ∃ g, Listed g evs ∧ x = toEntry e g

theorem listed_snoc {g : Seg} (v : Event Entry) : ∀ {evs : List (Event Entry)}, Listed g evs → Listed g (evs ++ [v]) := by
  intro evs
  induction evs with
  | nil => intro h; cases h
  | cons w t ih =>
    intro h
    cases w with
    | list a b => exact h.imp id ih
    | read a b => exact ih h

theorem listed_last {g : Seg} {seq : Nat} {l : List (Item × Bool)} (hg : g ∈ segments seq (l.map (·.1))) :
    ∀ (evs : List (Event Entry)), Listed g (evs ++ [.list seq l]) := by
  intro evs
  induction evs with
  | nil => exact Or.inl hg
  | cons w t ih =>
    cases w with
    | list a b => exact Or.inr ih
    | read a b => exact ih

theorem inv_fresh (e : Env) : Inv e [] 0 .fresh :=
  ⟨by intro u k h; simp [In.fresh, Pls.fresh] at h, rfl, Or.inl ⟨rfl, rfl⟩, Nat.le_refl _, List.Pairwise.nil,
    (by intro x hx; cases hx), (by intro x hx; rcases hx with h | h <;> cases h)⟩

/-- What loading adds to the entries: the new numbers follow the last. -/
theorem filter_run (e : Env) {l : List Item} {seq last : Nat} :
    Run (max (seq + 1) (last + 1)) (((segments seq l).filter (fun g => decide (last < g.num + 1))).map (toEntry e))
      ∧ max (seq + 1) (last + 1) + (((segments seq l).filter (fun g => decide (last < g.num + 1))).map (toEntry e)).length
        = max (max (seq + 1) (last + 1)) (seq + 1 + (segments seq l).length) := by
  have key : ∀ (l : List Item) (num : Nat) dur rng key, Run (max (num + 1) (last + 1))
      (((segs num dur rng key l).filter (fun g => decide (last < g.num + 1))).map (toEntry e))
      ∧ max (num + 1) (last + 1) + (((segs num dur rng key l).filter (fun g => decide (last < g.num + 1))).map (toEntry e)).length
        = max (max (num + 1) (last + 1)) (num + 1 + (segs num dur rng key l).length) := by
    intro l
    induction l with
    | nil => intro num dur rng key; exact ⟨trivial, by simp [segs]; omega⟩
    | cons i t ih =>
      intro num dur rng key
      cases i with
      | seg uri =>
        obtain ⟨a, b⟩ := ih (num + 1) [] none key
        simp only [segs, List.filter_cons]
        by_cases h : last < num + 1
        · rw [if_pos (by simpa using h)]
          simp only [List.map_cons, Run, List.length_cons]
          rw [show max (num + 1 + 1) (last + 1) = max (num + 1) (last + 1) + 1 from by omega] at a b
          refine ⟨⟨?_, a⟩, by omega⟩
          show num + 1 = _
          omega
        · rw [if_neg (by simpa using h)]
          rw [show max (num + 1 + 1) (last + 1) = max (num + 1) (last + 1) from by omega] at a b
          refine ⟨a, ?_⟩
          simp only [List.length_cons]
          omega
      | inf t => exact ih _ _ _ _
      | range a b => exact ih _ _ _ _
      | key a b c => exact ih _ _ _ _
      | note t => exact ih _ _ _ _
  exact key l seq [] none none

theorem inv_list (e : Env) {evs : List (Event Entry)} {m : Nat} {s : In} (h : Inv e evs m s) {seq : Nat} {l : List (Item × Bool)}
    (hm : m ≤ seq) (hp : Playlist e.fetch seq l) (hne : segments seq (l.map (·.1)) ≠ []) :
    ∃ s', step e s (opOf (.list seq l)) = some s' ∧ Inv e (evs ++ [.list seq l]) seq s' ∧ s'.handed = s.handed ∧ s'.parsed = s.parsed
      ∧ Shape s'.pls ∧ seq + (segments seq (l.map (·.1))).length ≤ s'.pls.last
      ∧ (∀ x ∈ s'.pls.entries, x ∈ s.pls.entries ∨ s.pls.last < x.num) := by
  obtain ⟨p', hr, o1, o2, o3, o4⟩ := reload_out e s.pls (seq := seq) (by have := hp.1; omega) l hp.2 h.keys
  simp only at o1 o3 o4
  rw [if_neg hne] at o4
  obtain ⟨f1, f2⟩ := filter_run e (l := l.map (·.1)) (seq := seq) (last := s.pls.last)
  have hpos : 0 < (segments seq (l.map (·.1))).length := List.length_pos_iff.2 hne
  have hnew : ∀ x ∈ p'.entries, x ∈ s.pls.entries ∨ s.pls.last < x.num := by
    intro x hx
    rw [o3] at hx
    rcases List.mem_append.1 hx with hx | hx
    · exact Or.inl hx
    · have := run_mem _ _ f1 x hx
      exact Or.inr (by omega)
  have hshape : Shape p' := by
    rcases h.shape with ⟨e1, e2⟩ | ⟨pre, r, a, e1, e2, e3, e4, e5, e6, e7⟩
    · refine ⟨[], _, max (seq + 1) (s.pls.last + 1), by rw [o3, e1], (by intro x hx; cases hx), f1, by omega, ?_, ?_, ?_⟩
      · rw [o1, e2]; omega
      · rw [f2, o4, e2]; omega
      · rw [o1, o4]; omega
    · have e5' : a ≤ m + 1 := by rw [← h.first]; exact e5
      have e2' : ∀ x ∈ pre, x.num ≤ m := by rw [← h.first]; exact e2
      by_cases hg : seq ≤ s.pls.last
      · refine ⟨pre, r ++ _, a, by rw [o3, e1, List.append_assoc], ?_, (run_append _ _ _).2 ⟨e3, ?_⟩, e4, ?_, ?_, ?_⟩
        · intro x hx; rw [o1]; have := e2' x hx; omega
        · rw [e6]
          rw [show max (seq + 1) (s.pls.last + 1) = s.pls.last + 1 from by omega] at f1
          exact f1
        · rw [o1]; omega
        · rw [List.length_append, o4]; omega
        · rw [o1, o4]; omega
      · refine ⟨pre ++ r, _, max (seq + 1) (s.pls.last + 1), by rw [o3, e1], ?_, f1, by omega, ?_, ?_, ?_⟩
        · intro x hx
          rw [o1]
          rcases List.mem_append.1 hx with hx | hx
          · have := e2' x hx; omega
          · have := run_mem _ _ e3 x hx; omega
        · rw [o1]; omega
        · rw [f2, o4]; omega
        · rw [o1, o4]; omega
  refine ⟨{ s with pls := p' }, by simp only [opOf, step]; rw [hr]; rfl, ?_, rfl, rfl, hshape, by simp only; rw [o4]; omega, hnew⟩
  refine ⟨o2, o1, Or.inr hshape, ?_, h.asc, h.le, ?_⟩
  · have := h.parsed
    simp only
    rw [o4]; omega
  · intro x hx
    simp only at hx
    rcases hx with hx | hx
    · rw [o3] at hx
      rcases List.mem_append.1 hx with hx | hx
      · obtain ⟨g, a, b⟩ := h.from_ x (Or.inl hx)
        exact ⟨g, listed_snoc _ a, b⟩
      · obtain ⟨g, hg, rfl⟩ := List.mem_map.1 hx
        exact ⟨g, listed_last (List.mem_filter.1 hg).1 evs, rfl⟩
    · obtain ⟨g, a, b⟩ := h.from_ x (Or.inr hx)
      exact ⟨g, listed_snoc _ a, b⟩

theorem run_last {l : List Entry} {a : Nat} (h : Run a l) {b : Entry} (hb : l.getLast? = some b) : b.num + 1 = a + l.length := by
  obtain ⟨t, rfl⟩ := List.getLast?_eq_some_iff.1 hb
  have := ((run_append t [b] a).1 h).2
  simp only [Run] at this
  simp only [List.length_append, List.length_cons, List.length_nil]
  omega

/-- The state after reading. -/
def after (ok : Entry → Bool) (n m : Nat) (s : In) (r : List Entry) : In :=
  { pls := { s.pls with entries := r }
    parsed := (hand ok (m + 1) n (max s.parsed m - m) (r.drop (max s.parsed m - m)) (max s.parsed m, s.handed)).1
    handed := (hand ok (m + 1) n (max s.parsed m - m) (r.drop (max s.parsed m - m)) (max s.parsed m, s.handed)).2 }

/-- Reading, when there is something. -/
theorem parse_shape (e : Env) {evs : List (Event Entry)} {m : Nat} {s : In} (h : Inv e evs m s) (hs : Shape s.pls)
    (ok : Entry → Bool) (n : Nat) :
    ∃ r, (∃ pre, s.pls.entries = pre ++ r ∧ ∀ x ∈ pre, x.num ≤ m) ∧ Run (m + 1) r ∧ m + 1 + r.length = s.pls.last + 1 ∧ m < s.pls.last
      ∧ parse ok n s = some (after ok n m s r) := by
  obtain ⟨pre, r, a, e1, e2, e3, e4, e5, e6, e7⟩ := hs
  have hf := h.first
  have hx : expire s.pls = r.drop (m + 1 - a) := by
    unfold expire
    rw [hf, e1, dropWhile_pre pre r (m + 1) (fun x hx => by have := e2 x hx; omega), run_dropWhile r a (m + 1) e3]
  obtain ⟨g1, g2⟩ := run_split r a (m + 1 - a) e3 (by omega)
  rw [show a + (m + 1 - a) = m + 1 from by omega] at g2
  have hlen : m + 1 + (r.drop (m + 1 - a)).length = s.pls.last + 1 := by rw [List.length_drop]; omega
  refine ⟨r.drop (m + 1 - a), ⟨pre ++ r.take (m + 1 - a), by rw [List.append_assoc, List.take_append_drop]; exact e1, ?_⟩, g2, hlen,
    by omega, ?_⟩
  · intro x hx
    rcases List.mem_append.1 hx with hx | hx
    · have := e2 x hx; omega
    · have := run_mem _ _ g1 x hx
      rw [List.length_take] at this
      omega
  · unfold parse
    have hne : s.pls.entries ≠ [] := by
      intro h0
      rw [e1] at h0
      have : r = [] := (List.append_eq_nil_iff.1 h0).2
      rw [this] at e6
      simp at e6
      omega
    rw [if_neg hne, hx]
    cases hd : r.drop (m + 1 - a) with
    | nil => rw [hd] at hlen; simp at hlen; omega
    | cons f t =>
      rw [hd] at g2 hlen
      have hfn : f.num = m + 1 := g2.1
      obtain ⟨b, hb⟩ : ∃ b, (f :: t).getLast? = some b := by
        cases hq : (f :: t).getLast? with
        | none => rw [List.getLast?_eq_none_iff] at hq; cases hq
        | some b => exact ⟨b, rfl⟩
      have hbn := run_last g2 hb
      simp only [List.head?_cons, hb]
      rw [hfn]
      simp only [Nat.add_sub_cancel]
      have hpl := h.parsed
      rw [if_neg (by omega), show 1 + max s.parsed m - (m + 1) = max s.parsed m - m from by omega]
      rfl

theorem inv_read (e : Env) {evs : List (Event Entry)} {m : Nat} {s : In} (h : Inv e evs m s) (ok : Entry → Bool) (n : Nat) :
    ∃ s', step e s (opOf (.read ok n)) = some s' ∧ Inv e (evs ++ [.read ok n]) m s' := by
  rcases h.shape with ⟨e1, e2⟩ | hs
  · refine ⟨s, by simp [opOf, step, parse, e1], h.keys, h.first, h.shape, h.parsed, h.asc, h.le, ?_⟩
    intro x hx
    obtain ⟨g, a, b⟩ := h.from_ x hx
    exact ⟨g, listed_snoc _ a, b⟩
  · obtain ⟨r, ⟨pre, hpre, hpm⟩, hr, hlen, hlt, hp⟩ := parse_shape e h hs ok n
    refine ⟨_, hp, ?_⟩
    have hpl := h.parsed
    obtain ⟨g1, g2⟩ := run_split r (m + 1) (max s.parsed m - m) hr (by omega)
    obtain ⟨a, b, c, d, f, -⟩ := hand_spec ok (m + 1) n (max s.parsed m - m) (r.drop (max s.parsed m - m)) (max s.parsed m, s.handed)
      g2 (by simp only; omega) h.asc (by intro x hx; have := h.le x hx; simp only; omega)
    refine ⟨h.keys, h.first, Or.inr ⟨[], r, m + 1, rfl, (by intro x hx; cases hx), hr, by omega, (by show m + 1 ≤ s.pls.first + 1; rw [h.first]; exact Nat.le_refl _), hlen,
      (by show s.pls.first < s.pls.last; rw [h.first]; exact hlt)⟩, ?_, a, b, ?_⟩
    · rw [List.length_drop] at d
      simp only at d
      show (hand _ _ _ _ _ _).1 ≤ s.pls.last
      omega
    · intro x hx
      have : x ∈ s.pls.entries ∨ x ∈ s.handed := by
        rcases hx with hx | hx
        · exact Or.inl (by rw [hpre]; exact List.mem_append_right _ hx)
        · rcases f x hx with hx | hx
          · exact Or.inr hx
          · exact Or.inl (by rw [hpre]; have := List.mem_of_mem_drop hx; simp [this])
      obtain ⟨g, p, q⟩ := h.from_ x this
      exact ⟨g, listed_snoc _ p, q⟩

theorem run_inv (e : Env) : ∀ (t evs : List (Event Entry)) (m : Nat) (s : In), Inv e evs m s → Live e.fetch m t →
    ∃ s', run e s (t.map opOf) = some s' ∧ ∃ m', Inv e (evs ++ t) m' s' := by
  intro t
  induction t with
  | nil => intro evs m s h _; exact ⟨s, rfl, m, by rw [List.append_nil]; exact h⟩
  | cons v t ih =>
    intro evs m s h hl
    cases v with
    | list seq l =>
      obtain ⟨h1, h2, h3, h4⟩ := hl
      obtain ⟨s', hs, hi, -⟩ := inv_list e h h1 h2 h3
      obtain ⟨s2, hr, m', hi2⟩ := ih (evs ++ [.list seq l]) seq s' hi h4
      refine ⟨s2, ?_, m', by rw [List.append_assoc] at hi2; exact hi2⟩
      simp only [List.map_cons, run]
      rw [hs]
      exact hr
    | read ok n =>
      obtain ⟨s', hs, hi⟩ := inv_read e h ok n
      obtain ⟨s2, hr, m', hi2⟩ := ih (evs ++ [.read ok n]) m s' hi hl
      refine ⟨s2, ?_, m', by rw [List.append_assoc] at hi2; exact hi2⟩
      simp only [List.map_cons, run]
      rw [hs]
      exact hr

/-- Whatever was read of the present entries was handed over. -/
def Full (s : In) : Prop := ∀ x ∈ s.pls.entries, x.num ≤ s.parsed → ∃ y ∈ s.handed, y.num = x.num

theorem full_list (e : Env) {evs : List (Event Entry)} {m : Nat} {s s' : In} (h : Inv e evs m s) (hf : Full s)
    (h1 : s'.handed = s.handed) (h2 : s'.parsed = s.parsed) (h3 : ∀ x ∈ s'.pls.entries, x ∈ s.pls.entries ∨ s.pls.last < x.num) :
    Full s' := by
  intro x hx hle
  have := h.parsed
  rw [h2] at hle
  rcases h3 x hx with h4 | h4
  · rw [h1]; exact hf x h4 hle
  · omega

theorem full_read (e : Env) {evs : List (Event Entry)} {m : Nat} {s s' : In} (h : Inv e evs m s) (hf : Full s) {ok : Entry → Bool}
    (hok : ∀ x, ok x = true) {n : Nat} (hs : step e s (opOf (.read ok n)) = some s') :
    Full s' ∧ (Shape s.pls → ∀ c, m ≤ c → c < m + n → c < s.pls.last → ∃ y ∈ s'.handed, y.num = c + 1) := by
  rcases h.shape with ⟨e1, e2⟩ | hsh
  · have : s' = s := by simpa [opOf, step, parse, e1] using hs.symm
    subst this
    refine ⟨hf, fun hx => ?_⟩
    obtain ⟨pre, r, a, q1, -, -, -, -, q6, q7⟩ := hx
    omega
  · obtain ⟨r, ⟨pre, hpre, hpm⟩, hr, hlen, hlt, hp⟩ := parse_shape e h hsh ok n
    have hpl := h.parsed
    obtain ⟨g1, g2⟩ := run_split r (m + 1) (max s.parsed m - m) hr (by omega)
    obtain ⟨a1, a2⟩ := hand_all hok (m + 1) n (max s.parsed m - m) (r.drop (max s.parsed m - m)) (max s.parsed m, s.handed)
    have hs' := Option.some.inj (hp.symm.trans hs)
    have hh : s'.handed = s.handed ++ (r.drop (max s.parsed m - m)).take n := by rw [← hs']; exact a1
    have hpp : s'.parsed = if (r.drop (max s.parsed m - m)).take n = [] then max s.parsed m
        else m + 1 + (max s.parsed m - m) + ((r.drop (max s.parsed m - m)).take n).length - 1 := by rw [← hs']; exact a2
    have hen : s'.pls.entries = r := by rw [← hs']; rfl
    have cover : ∀ c, m ≤ c → c < s.pls.last → (c + 1 ≤ s.parsed ∨ c + 1 < m + 1 + (max s.parsed m - m) + n) →
        ∃ y ∈ s'.handed, y.num = c + 1 := by
      intro c hc1 hc2 hc3
      rw [hh]
      by_cases hq : c + 1 ≤ s.parsed
      · obtain ⟨x, hx, hxn⟩ := run_has r (m + 1) (c + 1) hr (by omega) (by omega)
        obtain ⟨y, hy, hyn⟩ := hf x (by rw [hpre]; simp [hx]) (by omega)
        exact ⟨y, by simp [hy], by omega⟩
      · have hk : Run (m + 1 + (max s.parsed m - m)) ((r.drop (max s.parsed m - m)).take n) := by
          by_cases hn : n ≤ (r.drop (max s.parsed m - m)).length
          · exact (run_split _ _ n g2 hn).1
          · rw [List.take_of_length_le (by omega)]; exact g2
        obtain ⟨x, hx, hxn⟩ := run_has _ _ (c + 1) hk (by omega) (by
          rw [List.length_take, List.length_drop]
          omega)
        exact ⟨x, by simp [hx], hxn⟩
    refine ⟨?_, fun _ c h1 h2 h3 => cover c h1 h3 (by omega)⟩
    intro x hx hle
    rw [hen] at hx
    have hb := run_mem _ _ hr x hx
    obtain ⟨y, hy, hyn⟩ := cover (x.num - 1) (by omega) (by omega) (by
      rw [hpp] at hle
      split at hle
      · omega
      · rw [List.length_take] at hle
        omega)
    exact ⟨y, hy, by omega⟩

theorem run_full (e : Env) : ∀ (t evs : List (Event Entry)) (m : Nat) (s : In), Inv e evs m s → Full s → Live e.fetch m t → AllWell t →
    ∃ s', run e s (t.map opOf) = some s' ∧ Full s' ∧ ∃ m', Inv e (evs ++ t) m' s'
      ∧ ∀ u, Live e.fetch m (t ++ u) → Live e.fetch m' u := by
  intro t
  induction t with
  | nil => intro evs m s h hf _ _; exact ⟨s, rfl, hf, m, by rw [List.append_nil]; exact h, fun u hu => hu⟩
  | cons v t ih =>
    intro evs m s h hf hl ha
    cases v with
    | list seq l =>
      obtain ⟨h1, h2, h3, h4⟩ := hl
      obtain ⟨s', hs, hi, q1, q2, -, -, q3⟩ := inv_list e h h1 h2 h3
      obtain ⟨s2, hr, hf2, m', hi2, hu⟩ := ih (evs ++ [.list seq l]) seq s' hi (full_list e h hf q1 q2 q3) h4 ha
      refine ⟨s2, ?_, hf2, m', by rw [List.append_assoc] at hi2; exact hi2, fun u hl2 => hu u hl2.2.2.2⟩
      simp only [List.map_cons, run]
      rw [hs]
      exact hr
    | read ok n =>
      obtain ⟨s', hs, hi⟩ := inv_read e h ok n
      obtain ⟨s2, hr, hf2, m', hi2, hu⟩ := ih (evs ++ [.read ok n]) m s' hi (full_read e h hf ha.1 hs).1 hl ha.2
      refine ⟨s2, ?_, hf2, m', by rw [List.append_assoc] at hi2; exact hi2, fun u hl2 => hu u hl2⟩
      simp only [List.map_cons, run]
      rw [hs]
      exact hr

end Verif.HlsIn
