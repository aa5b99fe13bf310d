import Verif.Choose.Lemmas

/-!
# The choice of tracks: properties

C83: what is selected can be played and was asked for or is free to be chosen. C84: what is asked for is selected, and the rest is filled
up from the best combination of codecs.
-/
namespace Verif.Choose
open Spec
open Verif.Select (Track Sel ofTracks find)

/-! ## C83 -/

/-- C83: exceptions for user agents: the last entry that says something decides. -/
theorem C83_exception (ex : List Entry) (ua : Bytes) : checkException ex ua = false ↔ Refuses ex ua := checkException_iff ex ua

/-- C83: the tracks an output supports for a user agent. -/
theorem C83_supported_partial {c : Capa} (hw : Written c) {ua : Bytes} (hs : ua = [] ∨ Separate c) (ty : Bytes) (l : List Track) (t : Track) :
    t ∈ supported c ua ty l ↔ t ∈ l ∧ (ty = [] ∨ t.type = ty) ∧ Codec c ua t ∧ Decrypts c t ∧
      ∀ d, c.maxdelay = some d → ∀ u ∈ l, (ty = [] ∨ u.type = ty) → Codec c ua u → u.lastms ≤ t.lastms + d := by
  rw [mem_supported, kept_iff hw hs, encOk_iff, delayOk_iff]
  constructor
  · rintro ⟨a, ⟨b, c'⟩, d, e⟩
    exact ⟨a, b, c', d, fun n hn u hu h1 h2 => e n hn u hu ((kept_iff hw hs).2 ⟨h1, h2⟩)⟩
  · rintro ⟨a, b, c', d, e⟩
    refine ⟨a, ⟨b, c'⟩, d, fun n hn u hu h => ?_⟩
    obtain ⟨h1, h2⟩ := (kept_iff hw hs).1 h
    exact e n hn u hu h1 h2

/-- The order of the tracks in which they are tried; for those with numbers the metadata is in the order of the numbers. -/
def Order.rel : Order → Track → Track → Prop
  | .numbers, t, u => t.index ≤ u.index
  | .numbersDown, t, u => u.index ≤ t.index
  | .rates, t, u => t.bps ≤ u.bps
  | .ratesDown, t, u => u.bps ≤ t.bps
  | .areas _, _, _ => True
  | .areasDown _, _, _ => True

/-- The tracks of the metadata are in the order of their numbers. -/
def Ordered (l : List Track) : Prop := l.Pairwise fun t u => t.index < u.index

theorem ordered_before {l a b : List Track} {t : Track} (h : Ordered l) (hl : l = a ++ t :: b) : ∀ u ∈ a, u.index < t.index := by
  subst hl
  intro u hu
  exact (List.pairwise_append.1 h).2.2 u hu t List.mem_cons_self

/-- C84: the order of tracks: all of them, and by numbers or bit rates as configured. -/
theorem C84_order_partial (o : Order) (l : List Track) (h : Ordered l) : (sortTracks o l).Perm l ∧ (sortTracks o l).Pairwise o.rel := by
  refine ⟨sort_perm o l, ?_⟩
  unfold sortTracks
  apply sort_sorted
  · exact List.Pairwise.nil
  · rintro r' hr' t ⟨a, b, hl, hx⟩
    have hlt : ∀ u ∈ r', u.index < t.index := by
      intro u hu
      rcases hx u hu with h' | h'
      · simp at h'
      · exact ordered_before h hl u h'
    cases o with
    | numbers =>
      refine ⟨fun u _ hb => (by cases hb), fun u hu _ => ?_⟩
      have := hlt u hu
      show u.index ≤ t.index
      omega
    | numbersDown =>
      refine ⟨fun u hu _ => ⟨?_, fun v hv _ => ?_⟩, fun u _ hb => by cases hb⟩
      · have := hlt u hu
        show u.index ≤ t.index
        omega
      · have := hlt v hv
        show v.index ≤ t.index
        omega
    | rates =>
      refine ⟨fun u hu hb => ?_, fun u hu hb => ?_⟩
      · have hb' : t.bps ≤ u.bps := of_decide_eq_true hb
        exact ⟨hb', fun v hv huv => Nat.le_trans hb' huv⟩
      · have hb' : ¬ t.bps ≤ u.bps := of_decide_eq_false hb
        show u.bps ≤ t.bps
        omega
    | ratesDown =>
      refine ⟨fun u hu hb => ?_, fun u hu hb => ?_⟩
      · have hb' : t.bps ≥ u.bps := of_decide_eq_true hb
        exact ⟨hb', fun v hv (huv : v.bps ≤ u.bps) => Nat.le_trans huv hb'⟩
      · have hb' : ¬ t.bps ≥ u.bps := of_decide_eq_false hb
        show t.bps ≤ u.bps
        omega
    | areas f => exact ⟨fun u _ _ => ⟨trivial, fun _ _ _ => trivial⟩, fun _ _ _ => trivial⟩
    | areasDown f => exact ⟨fun u _ _ => ⟨trivial, fun _ _ _ => trivial⟩, fun _ _ _ => trivial⟩

theorem rel_refl (o : Order) (t : Track) : o.rel t t := by
  cases o <;> first | exact Nat.le_refl _ | trivial

theorem ordered_supported {l : List Track} (h : Ordered l) (c : Capa) (ua ty : Bytes) : Ordered (supported c ua ty l) := List.Pairwise.filter _ h

/-- The tracks asked for that the output supports. -/
def requested (m l : List Track) (c : Capa) (ua : Bytes) (p : Params) : List Track :=
  (supported c [] [] l).filter fun t => asked m (supported c ua [] l) p t.index

/-- The combination that is filled. -/
def chosen (m l : List Track) (c : Capa) (ua : Bytes) (p : Params) (cs : List (List (List Bytes))) : List (List Bytes) :=
  (cs[best c ua (requested m l c ua p) (supported c [] [] l) cs 0 (0, 0, 0)]?).getD []

theorem mem_requested {m l : List Track} {c : Capa} {ua : Bytes} {p : Params} {t : Track} :
    t ∈ requested m l c ua p ↔ t ∈ supported c [] [] l ∧ Asked m (supported c ua [] l) p t.index := by
  unfold requested
  rw [List.mem_filter, asked_iff]

theorem select_codecs {m l : List Track} {c : Capa} {ua : Bytes} {p : Params} {o : Order} {cs : List (List (List Bytes))} (hc : c.codecs = some cs) :
    wouldSelect m l (some c) ua p o = (chosen m l c ua p cs).foldl (fillGroup c ua p (sortTracks o (supported c [] [] l))) (requested m l c ua p) := by
  have : wouldSelect m l (some c) ua p o = match c.codecs with
      | none => requested m l c ua p ++ (supported c [] [] l).filter fun t => !(refused c ua t.codec || (c.nobframes && t.bframes)) && !blocked p t
      | some cs => (chosen m l c ua p cs).foldl (fillGroup c ua p (sortTracks o (supported c [] [] l))) (requested m l c ua p) := rfl
  rw [this, hc]

theorem select_all {m l : List Track} {c : Capa} {ua : Bytes} {p : Params} {o : Order} (hc : c.codecs = none) :
    wouldSelect m l (some c) ua p o =
      requested m l c ua p ++ (supported c [] [] l).filter fun t => !(refused c ua t.codec || (c.nobframes && t.bframes)) && !blocked p t := by
  have : wouldSelect m l (some c) ua p o = match c.codecs with
      | none => requested m l c ua p ++ (supported c [] [] l).filter fun t => !(refused c ua t.codec || (c.nobframes && t.bframes)) && !blocked p t
      | some cs => (chosen m l c ua p cs).foldl (fillGroup c ua p (sortTracks o (supported c [] [] l))) (requested m l c ua p) := rfl
  rw [this, hc]

theorem chosen_mem {m l : List Track} {c : Capa} {ua : Bytes} {p : Params} {cs : List (List (List Bytes))} :
    chosen m l c ua p cs = [] ∨ chosen m l c ua p cs ∈ cs := by
  unfold chosen
  cases h : cs[best c ua (requested m l c ua p) (supported c [] [] l) cs 0 (0, 0, 0)]? with
  | none => exact Or.inl rfl
  | some k => exact Or.inr (List.mem_of_getElem? h)

theorem chosen_formed {m l : List Track} {c : Capa} {ua : Bytes} {p : Params} {cs : List (List (List Bytes))} (hw : Written c) (hc : c.codecs = some cs) :
    ∀ g ∈ chosen m l c ua p cs, ∀ s ∈ g, Formed s := by
  rcases chosen_mem (m := m) (l := l) (c := c) (ua := ua) (p := p) (cs := cs) with h | h
  · rw [h]
    simp
  · exact hw cs hc _ h

theorem flags {a b : Bool} : (a && b) = false ↔ (a = true → b = false) := by cases a <;> cases b <;> decide

/-- C83: what is selected is a track of the stream that the output can decode and decrypt, and that is not too far behind; it was asked for
by a selector, or it was chosen automatically: then there is no selector for its type, the user agent can play it, and it has no B-frames
if there may be none. -/
theorem C83_partial {m l : List Track} (hl : Ordered l) {c : Capa} (hw : Written c) {ua : Bytes} {p : Params} {o : Order} {t : Track}
    (h : t ∈ wouldSelect m l (some c) ua p o) :
    t ∈ l ∧ Codec c [] t ∧ Decrypts c t ∧ (∀ d, c.maxdelay = some d → ∀ u ∈ l, Codec c [] u → u.lastms ≤ t.lastms + d) ∧
    (Asked m (supported c ua [] l) p t.index ∨
      (Free p t ∧ (c.nobframes = true → t.bframes = false) ∧ (c.codecs = none → ¬ Refused c ua t.codec) ∧ Codec c ua t)) := by
  have hsup : t ∈ supported c [] [] l → t ∈ l ∧ Codec c [] t ∧ Decrypts c t ∧
      (∀ d, c.maxdelay = some d → ∀ u ∈ l, Codec c [] u → u.lastms ≤ t.lastms + d) := by
    intro h
    obtain ⟨a, _, b, d, e⟩ := (C83_supported_partial hw (Or.inl rfl) [] l t).1 h
    exact ⟨a, b, d, fun n hn u hu => e n hn u hu (Or.inl rfl)⟩
  have key : t ∈ supported c [] [] l ∧ (Asked m (supported c ua [] l) p t.index ∨
      (Free p t ∧ (c.nobframes = true → t.bframes = false) ∧ (c.codecs = none → ¬ Refused c ua t.codec) ∧ Codec c ua t)) := by
    cases hc : c.codecs with
    | none =>
      rw [select_all hc] at h
      rcases List.mem_append.1 h with h | h
      · obtain ⟨h1, h2⟩ := mem_requested.1 h
        exact ⟨h1, Or.inl h2⟩
      · rw [List.mem_filter, Bool.and_eq_true, Bool.not_eq_true', Bool.not_eq_true', Bool.or_eq_false_iff, blocked_iff] at h
        obtain ⟨h1, ⟨h2, h3⟩, h4⟩ := h
        refine ⟨h1, Or.inr ⟨h4, flags.1 h3, fun _ => ?_, ?_⟩⟩
        · rw [← refused_iff, h2]
          simp
        · intro cs hcs
          rw [hc] at hcs
          cases hcs
    | some cs =>
      rw [select_codecs hc] at h
      obtain ⟨new, h1, h2, _⟩ := fill_spec c ua p o.rel (rel_refl o) (sortTracks o (supported c [] [] l))
        (C84_order_partial o _ (ordered_supported hl c [] [])).2 (chosen m l c ua p cs) (requested m l c ua p)
      rw [h1] at h
      rcases List.mem_append.1 h with h | h
      · obtain ⟨h1, h2⟩ := mem_requested.1 h
        exact ⟨h1, Or.inl h2⟩
      · obtain ⟨g, hg, s, hs, a1, a2, a3, a4, a5, _⟩ := h2 t h
        have hf := chosen_formed hw hc g hg s hs
        refine ⟨(mem_sort o _ t).1 a1, Or.inr ⟨(blocked_iff p t).1 a5, flags.1 a4, fun h => (by cases h), ?_⟩⟩
        intro cs' hcs'
        rw [hc, Option.some.injEq] at hcs'
        subst hcs'
        have hm : chosen m l c ua p cs ∈ cs := by
          rcases chosen_mem (m := m) (l := l) (c := c) (ua := ua) (p := p) (cs := cs) with h | h
          · rw [h] at hg
            simp at hg
          · exact h
        exact ⟨_, hm, g, hg, s, hs, (takes_iff hf t).1 a2, (not_textRefused hf c ua).1 a3⟩
  obtain ⟨k1, k2⟩ := key
  obtain ⟨a, b, d, e⟩ := hsup k1
  exact ⟨a, b, d, e, k2⟩

/-- C83: no track of a type is selected if the selector for it finds none and those for other types find none of it. -/
theorem C83_type {m l : List Track} (hl : Ordered l) {c : Capa} (hw : Written c) {ua : Bytes} {p : Params} {o : Order}
    (hv : p.video ≠ []) (hn : ∀ t ∈ l, t.type = Select.sVideo → ¬ Asked m (supported c ua [] l) p t.index) :
    ∀ t ∈ wouldSelect m l (some c) ua p o, t.type ≠ Select.sVideo := by
  intro t ht hty
  obtain ⟨h1, _, _, _, h⟩ := C83_partial hl hw ht
  rcases h with h | h
  · exact hn t h1 hty h
  · exact hv (h.1.2.1 hty)

/-! ## C84 -/

/-- C84: what is asked for and supported is selected. -/
theorem C84_asked {m l : List Track} (hl : Ordered l) {c : Capa} {ua : Bytes} {p : Params} {o : Order} {t : Track}
    (h : t ∈ supported c [] [] l) (ha : Asked m (supported c ua [] l) p t.index) : t ∈ wouldSelect m l (some c) ua p o := by
  have hr : t ∈ requested m l c ua p := mem_requested.2 ⟨h, ha⟩
  cases hc : c.codecs with
  | none =>
    rw [select_all hc]
    exact List.mem_append_left _ hr
  | some cs =>
    rw [select_codecs hc]
    obtain ⟨new, h1, _⟩ := fill_spec c ua p o.rel (rel_refl o) (sortTracks o (supported c [] [] l))
      (C84_order_partial o _ (ordered_supported hl c [] [])).2 (chosen m l c ua p cs) (requested m l c ua p)
    rw [h1]
    exact List.mem_append_left _ hr

/-- C84: an output without a list of codecs gets everything that it may. -/
theorem C84_all {m l : List Track} {c : Capa} (hc : c.codecs = none) {ua : Bytes} {p : Params} {o : Order} {t : Track} :
    t ∈ wouldSelect m l (some c) ua p o ↔ t ∈ supported c [] [] l ∧
      (Asked m (supported c ua [] l) p t.index ∨ (Free p t ∧ ¬ Refused c ua t.codec ∧ (c.nobframes = true → t.bframes = false))) := by
  rw [select_all hc, List.mem_append, mem_requested, List.mem_filter, Bool.and_eq_true, Bool.not_eq_true', Bool.not_eq_true',
    Bool.or_eq_false_iff, blocked_iff, flags, ← Bool.not_eq_true, refused_iff]
  constructor
  · rintro (⟨a, b⟩ | ⟨a, ⟨b, c'⟩, d⟩)
    · exact ⟨a, Or.inl b⟩
    · exact ⟨a, Or.inr ⟨d, b, c'⟩⟩
  · rintro ⟨a, b | ⟨d, b, c'⟩⟩
    · exact Or.inl ⟨a, b⟩
    · exact Or.inr ⟨a, ⟨b, c'⟩, d⟩

/-- C84: without an output in view, all valid tracks for whose type there is no selector, and those asked for. -/
theorem C84_free {m l : List Track} {ua : Bytes} {p : Params} {o : Order} {t : Track} :
    t ∈ wouldSelect m l none ua p o ↔ t ∈ l ∧ (Asked m l p t.index ∨ Free p t) := by
  show t ∈ l.filter (fun t => asked m l p t.index) ++ l.filter (fun t => !blocked p t) ↔ _
  rw [List.mem_append, List.mem_filter, List.mem_filter, asked_iff, Bool.not_eq_true', blocked_iff]
  constructor
  · rintro (⟨a, b⟩ | ⟨a, b⟩)
    · exact ⟨a, Or.inl b⟩
    · exact ⟨a, Or.inr b⟩
  · rintro ⟨a, b | b⟩
    · exact Or.inl ⟨a, b⟩
    · exact Or.inr ⟨a, b⟩

open Classical in
/-- How many of some tracks a combination has room for. -/
noncomputable def gain (c : Capa) (ua : Bytes) (ts : List Track) (k : List (List Bytes)) : Nat :=
  (k.flatten.map fun s => if TextRefused c ua s then 0
    else if Several s then (ts.filter fun t => decide (Takes s t)).length else min 1 (ts.filter fun t => decide (Takes s t)).length).sum

theorem total_gain {c : Capa} {ua : Bytes} {k : List (List Bytes)} (hk : ∀ g ∈ k, ∀ s ∈ g, Formed s) (ts : List Track) :
    total c ua ts k = gain c ua ts k := by
  unfold total gain
  congr 1
  apply List.map_congr_left
  intro s hs
  obtain ⟨g, hg, hs⟩ := List.mem_flatten.1 hs
  have hf := hk g hg s hs
  have h3 : ts.filter (takes s) = ts.filter fun t => @decide (Takes s t) (Classical.propDecidable _) := by
    apply List.filter_congr
    intro t _
    rw [Bool.eq_iff_iff, takes_iff hf, @decide_eq_true_iff _ (Classical.propDecidable _)]
  unfold count
  by_cases h1 : refused c ua (parse s).2.2 = true
  · rw [if_pos h1, if_pos ((textRefused_iff hf c ua).1 h1)]
  · rw [if_neg h1, if_neg (fun h => h1 ((textRefused_iff hf c ua).2 h)), h3]
    by_cases h2 : (parse s).2.1 = true
    · rw [if_pos h2, if_pos ((several_iff hf).1 h2)]
    · rw [if_neg h2, if_neg (fun h => h2 ((several_iff hf).2 h))]

/-- C84: one of the combinations of the output is filled: if any has room for all that was asked for, one that has, and among these one
that gets most tracks. Each of its groups then has a track if there is one for it, and for texts that are for several all. Nothing else is
selected automatically, for groups of single tracks at most one each, and the first in the configured order of those for its text.
(Missing: with outputs that take no B-frames, tracks with B-frames can hide others.) -/
theorem C84_partial {m l : List Track} (hl : Ordered l) {c : Capa} (hw : Written c) {cs : List (List (List Bytes))} (hc : c.codecs = some cs)
    (hd : ∀ k ∈ cs, Distinct k) (ua : Bytes) (p : Params) (o : Order) :
    ∃ k req new, (k ∈ cs ∨ k = []) ∧ wouldSelect m l (some c) ua p o = req ++ new ∧
      (∀ t, t ∈ req ↔ t ∈ supported c [] [] l ∧ Asked m (supported c ua [] l) p t.index) ∧
      (∀ k' ∈ cs, k' ≠ [] → Room c ua k' req → Room c ua k req ∧ gain c ua (supported c [] [] l) k' ≤ gain c ua (supported c [] [] l) k) ∧
      (∀ g ∈ k, ∀ s ∈ g, ∀ t ∈ supported c [] [] l, Takes s t → ¬ TextRefused c ua s → Free p t →
        (c.nobframes = true → ∀ u ∈ supported c [] [] l, Takes s u → u.bframes = false) →
        (∃ u ∈ wouldSelect m l (some c) ua p o, ∃ r ∈ g, Takes r u ∧ ¬ TextRefused c ua r) ∧ (Several s → t ∈ wouldSelect m l (some c) ua p o)) ∧
      ((∀ g ∈ k, ∀ s ∈ g, ¬ Several s) → new.length ≤ k.length) ∧
      ∀ u ∈ new, ∃ g ∈ k, ∃ s ∈ g, Takes s u ∧ (Several s ∨
        ∀ t ∈ supported c [] [] l, Takes s t → (c.nobframes = true → t.bframes = false) → Free p t → o.rel u t) := by
  have hform := chosen_formed (m := m) (l := l) (ua := ua) (p := p) hw hc
  have hlo := ordered_supported hl c [] []
  have hnd : (requested m l c ua p).Nodup := by
    unfold requested
    apply List.Pairwise.filter
    exact hlo.imp (fun h he => by rw [he] at h; omega)
  obtain ⟨new, h1, h2, h3, h4⟩ := fill_spec c ua p o.rel (rel_refl o) (sortTracks o (supported c [] [] l))
    (C84_order_partial o _ hlo).2 (chosen m l c ua p cs) (requested m l c ua p)
  have hmem := chosen_mem (m := m) (l := l) (c := c) (ua := ua) (p := p) (cs := cs)
  refine ⟨chosen m l c ua p cs, requested m l c ua p, new, hmem.symm, by rw [select_codecs hc, h1], fun t => mem_requested, ?_, ?_, ?_, ?_⟩
  · intro k' hk' hne hroom
    have hf' : ∀ g ∈ k', ∀ s ∈ g, Formed s := hw cs hc k' hk'
    obtain ⟨a, b⟩ := best_spec c ua (requested m l c ua p) (supported c [] [] l) cs k' hk' hne ((total_iff hf' (hd k' hk') _ hnd).2 hroom)
    have hdk : Distinct (chosen m l c ua p cs) := by
      rcases hmem with h | h
      · rw [h]
        exact List.Pairwise.nil
      · exact hd _ h
    refine ⟨(total_iff hform hdk _ hnd).1 a, ?_⟩
    rw [← total_gain hf', ← total_gain hform]
    exact b
  · intro g hg s hs t ht htk hr hfr hnb
    rw [select_codecs hc]
    have hf := hform g hg s hs
    have hnb' : ∀ u ∈ sortTracks o (supported c [] [] l), takes s u = true → (c.nobframes && u.bframes) = false := by
      intro u hu hu2
      exact flags.2 (fun h => hnb h u ((mem_sort o _ u).1 hu) ((takes_iff hf u).1 hu2))
    obtain ⟨⟨u, hu, r, hr', hu1, hu2⟩, h5⟩ := h4 g hg s hs ((not_textRefused hf c ua).2 hr) hnb' t ((mem_sort o _ t).2 ht) ((takes_iff hf t).2 htk) ((blocked_iff p t).2 hfr)
    have hfr' := hform g hg r hr'
    exact ⟨⟨u, hu, r, hr', (takes_iff hfr' u).1 hu1, (not_textRefused hfr' c ua).1 hu2⟩, fun hm => h5 ((several_iff hf).2 hm)⟩
  · intro hm
    apply h3
    intro g hg s hs
    rw [← Bool.not_eq_true, several_iff (hform g hg s hs)]
    exact hm g hg s hs
  · intro u hu
    obtain ⟨g, hg, s, hs, a1, a2, a3, a4, a5, a6⟩ := h2 u hu
    have hf := hform g hg s hs
    refine ⟨g, hg, s, hs, (takes_iff hf u).1 a2, ?_⟩
    rcases a6 with a6 | a6
    · exact Or.inl ((several_iff hf).1 a6)
    · exact Or.inr (fun t ht h5 h6 h7 => a6 t ((mem_sort o _ t).2 ht) ((takes_iff hf t).2 h5) (flags.2 h6) ((blocked_iff p t).2 h7))

/-! ## User agents -/

/-- C83: what is selected with selectors that have no numbers can be played by the user agent. -/
theorem C83_agent_partial {m l : List Track} (hl : Ordered l) {c : Capa} (hw : Written c) {ua : Bytes} {p : Params} {o : Order}
    (hn : ∀ v ∈ [p.audio, p.video, p.subtitle, p.metadata], ∀ it ∈ Select.items v, ¬ Select.Number (Select.unmark it)) {t : Track}
    (h : t ∈ wouldSelect m l (some c) ua p o) : Codec c ua t := by
  obtain ⟨h1, _, _, _, h5⟩ := C83_partial hl hw h
  rcases h5 with ⟨q, hq, _, h5⟩ | h5
  · have hv : q.2 ∈ [p.audio, p.video, p.subtitle, p.metadata] := by
      simp only [List.mem_cons, List.not_mem_nil, or_false] at hq ⊢
      rcases hq with rfl | rfl | rfl | rfl
      · exact Or.inl rfl
      · exact Or.inr (Or.inl rfl)
      · exact Or.inr (Or.inr (Or.inl rfl))
      · exact Or.inr (Or.inr (Or.inr rfl))
    have hs := Select.C82_within_list_partial m _ q.1 q.2 (hn _ hv) t.index h5
    obtain ⟨u, hu, hi⟩ := Select.ofTracks_iff.1 hs
    obtain ⟨hu1, hu2, _⟩ := (mem_supported c ua [] l u).1 hu
    have : u = t := by
      have huniq : ∀ a ∈ l, ∀ b ∈ l, a.index = b.index → a = b := by
        intro a ha b hb hab
        have key : ∀ l : List Track, Ordered l → ∀ a ∈ l, ∀ b ∈ l, a.index = b.index → a = b := by
          intro l hl
          induction l with
          | nil => simp
          | cons x l ih =>
            obtain ⟨g1, g2⟩ := List.pairwise_cons.1 hl
            intro a ha b hb hab
            rcases List.mem_cons.1 ha with ea | ha' <;> rcases List.mem_cons.1 hb with eb | hb'
            · rw [ea, eb]
            · have := g1 b hb'
              rw [ea] at hab
              omega
            · have := g1 a ha'
              rw [eb] at hab
              omega
            · exact ih g2 a ha' b hb' hab
        exact key l hl a ha b hb hab
      exact huniq u hu1 t h1 hi
    subst this
    rw [kept, Bool.and_eq_true] at hu2
    exact codecOk_sound hw hu2.2
  · exact h5.2.2.2

/-! ## Where it fails -/

/-- "H264". -/
private def sH264 : Bytes := [72, 50, 54, 52]
/-- "AAC". -/
private def sAAC : Bytes := [65, 65, 67]

/-- A track for examples. -/
private def trk (i : Nat) (type codec : Bytes) (bps : Nat) (bframes : Bool) (enc : Bytes) (last : Nat) : Track :=
  ⟨i, i + 1, type, codec, Select.und, bps, 640, 360, 0, bframes, enc, last, false⟩

/-- An output for one H264 and one AAC track. -/
private def out : Capa := ⟨some [[[sH264], [sAAC]]], [], [], none, false⟩

/-- "Bad" is refused H264. -/
private def outEx : Capa := { out with exceptions := [(sCodec ++ sH264, [⟨[98, 108, 97, 99, 107, 108, 105, 115, 116], some [[66, 97, 100]]⟩])] }

theorem written (ex : List (Bytes × List Entry)) (enc : List Bytes) (d : Option Nat) (nb : Bool) : Written ⟨some [[[sH264], [sAAC]]], ex, enc, d, nb⟩ := by
  intro cs hcs k hk g hg s hs
  simp only [Option.some.injEq] at hcs
  subst hcs
  simp only [List.mem_singleton] at hk
  subst hk
  simp only [List.mem_cons, List.not_mem_nil, or_false] at hg
  rcases hg with rfl | rfl
  · rw [List.mem_singleton] at hs
    exact ⟨⟨false, false, sH264⟩, ⟨by decide, by decide⟩, hs⟩
  · rw [List.mem_singleton] at hs
    exact ⟨⟨false, false, sAAC⟩, ⟨by decide, by decide⟩, hs⟩

/-- C83 fails for selection by number: the exceptions for user agents are not looked at. -/
theorem C83_agent_fails : ∃ (m : List Track) (c : Capa) (ua : Bytes) (p : Params) (t : Track), Ordered m ∧ Written c ∧
    t ∈ wouldSelect m m (some c) ua p .numbers ∧ codecOk c ua t = false := by
  refine ⟨[trk 0 Select.sVideo sH264 100 false [] 0], outEx, [66, 97, 100], ⟨[], [48], [], []⟩, trk 0 Select.sVideo sH264 100 false [] 0, ?_, written _ _ _ _, ?_, by decide +kernel⟩
  · simp [Ordered]
  · have : (wouldSelect [trk 0 Select.sVideo sH264 100 false [] 0] [trk 0 Select.sVideo sH264 100 false [] 0] (some outEx) [66, 97, 100] ⟨[], [48], [], []⟩ .numbers).map (·.index) = [0] := by decide +kernel
    obtain ⟨u, hu, hi⟩ := List.mem_map.1 (show 0 ∈ _ from by rw [this]; exact List.mem_cons_self)
    have hm := (C83_partial (by simp [Ordered]) (written _ _ _ _) hu).1
    rw [List.mem_singleton] at hm
    subst hm
    exact hu

/-- C83 fails for B-frames: a selector can select them for an output that cannot have them. -/
theorem C83_bframes_fails : ∃ (m : List Track) (c : Capa) (p : Params) (t : Track), Ordered m ∧ Written c ∧ c.nobframes = true ∧ t.bframes = true ∧
    t ∈ wouldSelect m m (some c) [] p .numbers := by
  refine ⟨[trk 0 Select.sVideo sH264 100 true [] 0], { out with nobframes := true }, ⟨[], Select.sAll, [], []⟩, trk 0 Select.sVideo sH264 100 true [] 0, by simp [Ordered], written _ _ _ _, rfl, rfl, ?_⟩
  have : (wouldSelect [trk 0 Select.sVideo sH264 100 true [] 0] [trk 0 Select.sVideo sH264 100 true [] 0] (some { out with nobframes := true }) [] ⟨[], Select.sAll, [], []⟩ .numbers).map (·.index) = [0] := by decide +kernel
  obtain ⟨u, hu, hi⟩ := List.mem_map.1 (show 0 ∈ _ from by rw [this]; exact List.mem_cons_self)
  have hm := (C83_partial (by simp [Ordered]) (written _ _ _ _) hu).1
  rw [List.mem_singleton] at hm
  subst hm
  exact hu

/-- C83 fails for the largest delay: an encrypted track that the output cannot play, but that is ahead of the others, makes it drop all
that it can play. -/
theorem C83_delay_fails : ∃ (m : List Track) (c : Capa), Ordered m ∧ Written c ∧ c.maxdelay = some 1500 ∧
    (∃ t ∈ m, Codec c [] t ∧ Decrypts c t ∧ ∀ u ∈ m, Decrypts c u → u.lastms ≤ t.lastms) ∧ supported c [] [] m = [] := by
  refine ⟨[trk 0 Select.sVideo sH264 100 false [] 1000, trk 1 Select.sVideo sH264 100 false [67, 84, 82] 9000], { out with maxdelay := some 1500 },
    by simp [Ordered, trk], written _ _ _ _, rfl, ⟨trk 0 Select.sVideo sH264 100 false [] 1000, List.mem_cons_self, ?_, Or.inl rfl, ?_⟩, ?_⟩
  · exact (codecOk_iff (written _ _ _ _) (Or.inl rfl)).1 (by decide +kernel)
  · intro u hu hd
    simp only [List.mem_cons, List.not_mem_nil, or_false] at hu
    rcases hu with rfl | rfl
    · exact Nat.le_refl _
    · rw [← encOk_iff] at hd
      exact absurd hd (by decide +kernel)
  · have h : ∀ l : List Track, l.length = 0 → l = [] := fun l => List.eq_nil_of_length_eq_zero
    exact h _ (by decide +kernel)

/-- C84 fails for B-frames: a track with B-frames hides the ones without that come later, and no video is selected. -/
theorem C84_hidden_fails : ∃ (m : List Track) (c : Capa) (t : Track), Ordered m ∧ Written c ∧ t ∈ supported c [] [] m ∧ t.bframes = false ∧
    Takes sH264 t ∧ c.codecs = some [[[sH264], [sAAC]]] ∧ wouldSelect m m (some c) [] ⟨[], [], [], []⟩ .numbers = [] := by
  refine ⟨[trk 0 Select.sVideo sH264 100 true [] 0, trk 1 Select.sVideo sH264 100 false [] 0], { out with nobframes := true },
    trk 1 Select.sVideo sH264 100 false [] 0, by simp [Ordered, trk], written _ _ _ _, ?_, rfl, ⟨⟨false, false, sH264⟩, ⟨by decide, by decide⟩, rfl, Or.inl rfl⟩, rfl, ?_⟩
  · rw [mem_supported]
    exact ⟨by simp, by decide +kernel, by decide +kernel, by decide +kernel⟩
  · have h : ∀ l : List Track, l.length = 0 → l = [] := fun l => List.eq_nil_of_length_eq_zero
    exact h _ (by decide +kernel)

/-- C84 fails for the order by resolution: a larger track with a lower frame rate comes first. -/
theorem C84_areas_fails : ∃ (fps : Track → Nat) (l : List Track), Ordered l ∧ ¬ (sortTracks (.areas fps) l).Pairwise fun t u => t.area ≤ u.area := by
  refine ⟨fun t => t.bps, [trk 0 Select.sVideo sH264 30 false [] 0, { trk 1 Select.sVideo sH264 25 false [] 0 with width := 1280 }], by simp [Ordered, trk], ?_⟩
  intro h
  have : (sortTracks (.areas fun t => t.bps) [trk 0 Select.sVideo sH264 30 false [] 0, { trk 1 Select.sVideo sH264 25 false [] 0 with width := 1280 }]) =
      [{ trk 1 Select.sVideo sH264 25 false [] 0 with width := 1280 }, trk 0 Select.sVideo sH264 30 false [] 0] := rfl
  rw [this] at h
  have := (List.pairwise_cons.1 h).1 _ List.mem_cons_self
  revert this
  decide

/-- C84: the order by resolution, for tracks of which the larger ones never have the lower frame rates: by both. -/
theorem C84_areas_partial (fps : Track → Nat) (l : List Track)
    (hc : ∀ t ∈ l, ∀ u ∈ l, (t.area ≤ u.area ∧ fps t ≤ fps u) ∨ (u.area ≤ t.area ∧ fps u ≤ fps t)) :
    (sortTracks (.areas fps) l).Pairwise (fun t u => t.area ≤ u.area ∧ fps t ≤ fps u) ∧
    (sortTracks (.areasDown fps) l).Pairwise (fun t u => u.area ≤ t.area ∧ fps u ≤ fps t) := by
  constructor
  · unfold sortTracks
    apply sort_sorted
    · exact List.Pairwise.nil
    · rintro r' hr' t ⟨a, b, hl, hx⟩
      have ht : t ∈ l := by rw [hl]; simp
      have hm : ∀ u ∈ r', u ∈ l := fun u hu => by
        rcases hx u hu with h | h
        · cases h
        · rw [hl]; simp [h]
      refine ⟨fun u hu hb => ?_, fun u hu hb => ?_⟩
      · simp only [before, Bool.or_eq_true, decide_eq_true_eq] at hb
        rcases hc t ht u (hm u hu) with h | h
        · exact ⟨h, fun v _ hv => ⟨Nat.le_trans h.1 hv.1, Nat.le_trans h.2 hv.2⟩⟩
        · omega
      · simp only [before, Bool.or_eq_false_iff, decide_eq_false_iff_not] at hb
        exact ⟨by omega, by omega⟩
  · unfold sortTracks
    apply sort_sorted
    · exact List.Pairwise.nil
    · rintro r' hr' t ⟨a, b, hl, hx⟩
      have ht : t ∈ l := by rw [hl]; simp
      have hm : ∀ u ∈ r', u ∈ l := fun u hu => by
        rcases hx u hu with h | h
        · cases h
        · rw [hl]; simp [h]
      refine ⟨fun u hu hb => ?_, fun u hu hb => ?_⟩
      · simp only [before, Bool.or_eq_true, decide_eq_true_eq] at hb
        rcases hc t ht u (hm u hu) with h | h
        · omega
        · exact ⟨h, fun v _ hv => ⟨Nat.le_trans hv.1 h.1, Nat.le_trans hv.2 h.2⟩⟩
      · simp only [before, Bool.or_eq_false_iff, decide_eq_false_iff_not] at hb
        exact ⟨by omega, by omega⟩

/-! ## Not empty -/

private def sample : List Track := [trk 0 Select.sVideo sH264 100 false [] 0, trk 1 Select.sVideo sH264 300 false [] 0, trk 2 Select.sAudio sAAC 20 false [] 0]

example : Ordered sample ∧ Written out ∧ Separate out ∧ ∀ k ∈ [[[sH264], [sAAC]]], Distinct k := by
  refine ⟨by simp [Ordered, sample, trk], written _ _ _ _, ?_, ?_⟩
  · intro cs hcs k hk g hg
    simp only [out, Option.some.injEq] at hcs
    subst hcs
    simp only [List.mem_singleton] at hk
    subst hk
    simp only [List.mem_cons, List.not_mem_nil, or_false] at hg
    rcases hg with rfl | rfl <;> simp
  · intro k hk
    rw [List.mem_singleton] at hk
    subst hk
    refine List.pairwise_cons.2 ⟨?_, List.pairwise_cons.2 ⟨by simp, List.Pairwise.nil⟩⟩
    intro s hs t ⟨h1, h2⟩
    have hs : s = sAAC := List.mem_singleton.1 hs
    subst hs
    have h1 := (takes_iff (s := sH264) ⟨⟨false, false, sH264⟩, ⟨by decide, by decide⟩, rfl⟩ t).2 h1
    have h2 := (takes_iff (s := sAAC) ⟨⟨false, false, sAAC⟩, ⟨by decide, by decide⟩, rfl⟩ t).2 h2
    have h1' : (decide (t.codec = sH264) || false || false) = true := h1
    have h2' : (decide (t.codec = sAAC) || false || false) = true := h2
    simp only [Bool.or_false, decide_eq_true_eq] at h1' h2'
    rw [h1'] at h2'
    exact absurd h2' (by decide)

/-- By default one track of each; the best with a selector; none of the video with `none`. -/
example : [(⟨[], [], [], []⟩ : Params), ⟨[], [109, 97, 120, 98, 112, 115], [], []⟩, ⟨[], [110, 111, 110, 101], [], []⟩].map (fun p =>
    (wouldSelect sample sample (some out) [] p .numbers).map (·.index)) = [[0, 2], [1, 2], [2]] := by decide +kernel

end Verif.Choose
