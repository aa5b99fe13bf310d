import Verif.Choose.Spec
import Verif.Select.Props

/-!
# Lemmas on the choice of tracks
-/
namespace Verif.Choose
open Spec
open Verif.Select (Track Sel ofTracks find)

/-! ## Texts -/

theorem parse_text (w : Wish) (h : w.Plain) : parse w.text = (w.byType, w.several, w.name) := by
  obtain ⟨b, v, n⟩ := w
  obtain ⟨h1, h2⟩ := h
  cases b <;> cases v
  · show parse n = _
    unfold parse
    rw [if_neg h1, if_neg h2]
  · show parse (43 :: n) = _
    rfl
  · show parse (64 :: n) = _
    unfold parse
    rw [if_pos (show (64 :: n).head? = some 64 from rfl)]
    show (if n.head? = some 43 then _ else _) = _
    rw [if_neg h2]
    rfl
  · show parse (64 :: 43 :: n) = _
    rfl

theorem text_inj {v w : Wish} (hv : v.Plain) (hw : w.Plain) (h : v.text = w.text) : v = w := by
  have h1 := parse_text v hv
  rw [h, parse_text w hw] at h1
  obtain ⟨a, b, c⟩ := v
  obtain ⟨d, e, f⟩ := w
  simp only [Prod.mk.injEq] at h1
  rw [h1.1, h1.2.1, h1.2.2]

/-- A text of the form meant. -/
def Formed (s : Bytes) : Prop := ∃ w : Wish, w.Plain ∧ s = w.text

theorem takes_iff {s : Bytes} (h : Formed s) (t : Track) : takes s t = true ↔ Takes s t := by
  obtain ⟨w, hw, rfl⟩ := h
  unfold takes
  rw [parse_text w hw]
  have hT : Takes w.text t ↔ w.Takes t := by
    constructor
    · rintro ⟨v, hv, he, ht⟩
      rw [text_inj hw hv he]
      exact ht
    · exact fun ht => ⟨w, hw, rfl, ht⟩
  rw [hT]
  unfold Wish.Takes
  obtain ⟨b, v, n⟩ := w
  cases b <;> simp

theorem several_iff {s : Bytes} (h : Formed s) : (parse s).2.1 = true ↔ Several s := by
  obtain ⟨w, hw, rfl⟩ := h
  rw [parse_text w hw]
  constructor
  · exact fun h => ⟨w, hw, rfl, h⟩
  · rintro ⟨v, hv, he, ht⟩
    rw [text_inj hw hv he]
    exact ht

theorem isPrefixOf_split {p s : Bytes} (h : p.isPrefixOf s = true) : ∃ r, s = p ++ r := by
  obtain ⟨r, hr⟩ := List.isPrefixOf_iff_prefix.1 h
  exact ⟨r, hr.symm⟩

theorem has_iff (v s : Bytes) : Select.has v s = true ↔ Occurs v s := by
  unfold Select.has Occurs
  constructor
  · intro h
    obtain ⟨i, hi⟩ := Option.isSome_iff_exists.1 h
    obtain ⟨_, ⟨b, hb⟩, _⟩ := findSub_some hi
    exact ⟨s.take i, b, by rw [List.append_assoc, hb, List.take_append_drop]⟩
  · rintro ⟨a, b, h⟩
    cases hf : findSub v s with
    | some i => rfl
    | none =>
      refine absurd ?_ (findSub_none hf a.length (by rw [h]; simp))
      rw [h, List.append_assoc, List.drop_left]
      exact ⟨b, rfl⟩

theorem entry_eq (ua : Bytes) (ret : Bool) (e : Entry) :
    (Applies ua e → entry ua ret e = (decide (e.kind = sWhite) || decide (e.kind = sWhiteExcept))) ∧ (¬ Applies ua e → entry ua ret e = ret) := by
  have hany : ∀ vs : List Bytes, (vs.any fun v => Select.has v ua) = true ↔ ∃ v ∈ vs, Occurs v ua := by
    intro vs
    simp only [List.any_eq_true, has_iff]
  unfold entry Applies
  cases hv : e.values with
  | none => exact ⟨fun _ => rfl, fun h => absurd trivial h⟩
  | some vs =>
    simp only
    by_cases he : e.kind = sWhiteExcept ∨ e.kind = sBlackExcept
    · have hb : (decide (e.kind = sWhiteExcept) || decide (e.kind = sBlackExcept)) = true := by simpa using he
      rw [if_pos he, hb, ← hany vs]
      cases vs.any fun v => Select.has v ua <;> simp
    · have hb : (decide (e.kind = sWhiteExcept) || decide (e.kind = sBlackExcept)) = false := by simpa using he
      rw [if_neg he, hb, ← hany vs]
      cases vs.any fun v => Select.has v ua <;> simp

theorem fold_entry (ua : Bytes) (ex : List Entry) (ret : Bool) :
    ex.foldl (entry ua) ret = false ↔
      (∃ a e b, ex = a ++ e :: b ∧ Applies ua e ∧ (e.kind ≠ sWhite ∧ e.kind ≠ sWhiteExcept) ∧ ∀ x ∈ b, ¬ Applies ua x) ∨
      (ret = false ∧ ∀ x ∈ ex, ¬ Applies ua x) := by
  induction ex generalizing ret with
  | nil => simp
  | cons d ex ih =>
    rw [List.foldl_cons, ih]
    obtain ⟨h1, h2⟩ := entry_eq ua ret d
    constructor
    · rintro (⟨a, e, b, rfl, h⟩ | ⟨h, h'⟩)
      · exact Or.inl ⟨d :: a, e, b, rfl, h⟩
      · by_cases hd : Applies ua d
        · rw [h1 hd] at h
          simp only [Bool.or_eq_false_iff, decide_eq_false_iff_not] at h
          exact Or.inl ⟨[], d, ex, rfl, hd, h, h'⟩
        · rw [h2 hd] at h
          refine Or.inr ⟨h, ?_⟩
          intro x hx
          rcases List.mem_cons.1 hx with rfl | hx
          · exact hd
          · exact h' x hx
    · rintro (⟨a, e, b, he, ha, hk, hb⟩ | ⟨h, h'⟩)
      · cases a with
        | nil =>
          simp only [List.nil_append, List.cons.injEq] at he
          obtain ⟨rfl, rfl⟩ := he
          refine Or.inr ⟨?_, hb⟩
          rw [h1 ha]
          simp [hk.1, hk.2]
        | cons x a =>
          simp only [List.cons_append, List.cons.injEq] at he
          exact Or.inl ⟨a, e, b, he.2, ha, hk, hb⟩
      · refine Or.inr ⟨?_, fun x hx => h' x (List.mem_cons_of_mem _ hx)⟩
        rw [h2 (h' d List.mem_cons_self)]
        exact h

theorem checkException_iff (ex : List Entry) (ua : Bytes) : checkException ex ua = false ↔ Refuses ex ua := by
  unfold checkException Refuses
  by_cases h : ua = []
  · rw [if_pos h]
    simp [h]
  · rw [if_neg h, fold_entry]
    simp [h]

theorem refused_iff (c : Capa) (ua name : Bytes) : refused c ua name = true ↔ Refused c ua name := by
  unfold refused Refused
  cases h : c.exceptions.lookup (sCodec ++ name) with
  | none => simp
  | some ex => simp [checkException_iff]

theorem not_refused_nil (c : Capa) (name : Bytes) : refused c [] name = false := by
  unfold refused
  cases c.exceptions.lookup (sCodec ++ name) with
  | none => rfl
  | some ex => rfl

theorem textRefused_iff {s : Bytes} (h : Formed s) (c : Capa) (ua : Bytes) : refused c ua (parse s).2.2 = true ↔ TextRefused c ua s := by
  obtain ⟨w, hw, rfl⟩ := h
  rw [parse_text w hw, refused_iff]
  constructor
  · exact fun h => ⟨w, hw, rfl, h⟩
  · rintro ⟨v, hv, he, ht⟩
    rw [text_inj hw hv he]
    exact ht

theorem not_textRefused {s : Bytes} (h : Formed s) (c : Capa) (ua : Bytes) : refused c ua (parse s).2.2 = false ↔ ¬ TextRefused c ua s := by
  rw [← textRefused_iff h, Bool.not_eq_true]

/-! ## Support -/

/-- No two texts of a group take the same track. -/
def Separate (c : Capa) : Prop := ∀ cs, c.codecs = some cs → ∀ k ∈ cs, ∀ g ∈ k, g.Pairwise fun r s => ∀ t, ¬ (Takes r t ∧ Takes s t)

theorem inGroup_sound (c : Capa) (ua : Bytes) (t : Track) (g : List Bytes) (hg : ∀ s ∈ g, Formed s) (h : inGroup c ua t g = true) :
    ∃ s ∈ g, Takes s t ∧ ¬ TextRefused c ua s := by
  induction g with
  | nil => simp [inGroup] at h
  | cons s g ih =>
    have hs := hg s List.mem_cons_self
    unfold inGroup at h
    by_cases ht : takes s t = true
    · rw [if_pos ht, Bool.not_eq_true'] at h
      exact ⟨s, List.mem_cons_self, (takes_iff hs t).1 ht, (not_textRefused hs c ua).1 h⟩
    · rw [if_neg ht] at h
      obtain ⟨r, hr, h⟩ := ih (fun r hr => hg r (List.mem_cons_of_mem _ hr)) h
      exact ⟨r, List.mem_cons_of_mem _ hr, h⟩

theorem inGroup_complete (c : Capa) (ua : Bytes) (t : Track) (g : List Bytes) (hg : ∀ s ∈ g, Formed s)
    (hd : ua = [] ∨ g.Pairwise fun r s => ∀ t, ¬ (Takes r t ∧ Takes s t)) (s : Bytes) (hs : s ∈ g) (ht : Takes s t) (hr : ¬ TextRefused c ua s) :
    inGroup c ua t g = true := by
  induction g with
  | nil => simp at hs
  | cons r g ih =>
    have hfr := hg r List.mem_cons_self
    unfold inGroup
    by_cases htr : takes r t = true
    · rw [if_pos htr, Bool.not_eq_true']
      rcases hd with rfl | hd
      · exact not_refused_nil _ _
      · rcases List.mem_cons.1 hs with rfl | hs
        · exact (not_textRefused hfr c ua).2 hr
        · exact absurd ⟨(takes_iff hfr t).1 htr, ht⟩ ((List.pairwise_cons.1 hd).1 s hs t)
    · rw [if_neg htr]
      rcases List.mem_cons.1 hs with rfl | hs
      · exact absurd ((takes_iff hfr t).2 ht) htr
      · exact ih (fun r hr => hg r (List.mem_cons_of_mem _ hr)) (hd.imp id fun h => (List.pairwise_cons.1 h).2) hs

theorem codecOk_sound {c : Capa} (hw : Written c) {ua : Bytes} {t : Track} (h : codecOk c ua t = true) : Codec c ua t := by
  intro cs hcs
  unfold codecOk at h
  rw [hcs] at h
  obtain ⟨k, hk, h⟩ := List.any_eq_true.1 h
  obtain ⟨g, hg, h⟩ := List.any_eq_true.1 h
  exact ⟨k, hk, g, hg, inGroup_sound c ua t g (hw cs hcs k hk g hg) h⟩

theorem codecOk_iff {c : Capa} (hw : Written c) {ua : Bytes} (hs : ua = [] ∨ Separate c) {t : Track} : codecOk c ua t = true ↔ Codec c ua t := by
  refine ⟨codecOk_sound hw, ?_⟩
  intro h
  unfold codecOk
  cases hcs : c.codecs with
  | none => rfl
  | some cs =>
    obtain ⟨k, hk, g, hg, s, hs', h1, h2⟩ := h cs hcs
    refine List.any_eq_true.2 ⟨k, hk, List.any_eq_true.2 ⟨g, hg, ?_⟩⟩
    exact inGroup_complete c ua t g (hw cs hcs k hk g hg) (hs.imp id fun h => h cs hcs k hk g hg) s hs' h1 h2

theorem takeWhile_slash (e : Bytes) : Scheme e (e.takeWhile (· != 47)) ∧ ∀ s, Scheme e s → s = e.takeWhile (· != 47) := by
  have hsplit : ∀ e : Bytes, e = e.takeWhile (· != 47) ∨ ∃ r, e = e.takeWhile (· != 47) ++ 47 :: r := by
    intro e
    induction e with
    | nil => exact Or.inl rfl
    | cons c e ih =>
      by_cases hc : c = 47
      · subst hc
        exact Or.inr ⟨e, rfl⟩
      · have : (c != 47) = true := by simpa using hc
        rw [List.takeWhile_cons, if_pos this]
        rcases ih with ih | ⟨r, ih⟩
        · exact Or.inl (by rw [← ih])
        · exact Or.inr ⟨r, by rw [List.cons_append, ← ih]⟩
  have hno : ∀ s r : Bytes, 47 ∉ s → (s ++ 47 :: r).takeWhile (· != 47) = s ∧ s.takeWhile (· != 47) = s := by
    intro s r hs
    induction s with
    | nil => exact ⟨rfl, rfl⟩
    | cons c s ih =>
      simp only [List.mem_cons, not_or] at hs
      have : (c != 47) = true := by
        rw [bne_iff_ne]
        exact Ne.symm hs.1
      rw [List.cons_append, List.takeWhile_cons, if_pos this, List.takeWhile_cons, if_pos this, (ih hs.2).1, (ih hs.2).2]
      exact ⟨rfl, rfl⟩
  refine ⟨⟨?_, hsplit e⟩, ?_⟩
  · intro h
    have : ∀ l : Bytes, ∀ c ∈ l.takeWhile (· != 47), c ≠ 47 := by
      intro l
      induction l with
      | nil => simp
      | cons d l ih =>
        intro c hc
        by_cases hd : (d != 47) = true
        · rw [List.takeWhile_cons, if_pos hd] at hc
          rcases List.mem_cons.1 hc with rfl | hc
          · simpa using hd
          · exact ih c hc
        · rw [List.takeWhile_cons, if_neg hd] at hc
          simp at hc
    exact this e 47 h rfl
  · rintro s ⟨hs, rfl | ⟨r, rfl⟩⟩
    · exact (hno _ [] hs).2.symm
    · exact (hno _ r hs).1.symm

theorem encOk_iff (c : Capa) (t : Track) : encOk c t = true ↔ Decrypts c t := by
  unfold encOk Decrypts
  rw [Bool.or_eq_true, decide_eq_true_eq, List.contains_iff_mem]
  constructor
  · rintro (h | h)
    · exact Or.inl h
    · exact Or.inr ⟨_, h, (takeWhile_slash _).1⟩
  · rintro (h | ⟨s, h, hs⟩)
    · exact Or.inl h
    · exact Or.inr ((takeWhile_slash _).2 s hs ▸ h)

theorem foldMax (l : List Track) (a : Nat) :
    a ≤ l.foldl (fun a t => if t.lastms > a then t.lastms else a) a ∧ (∀ t ∈ l, t.lastms ≤ l.foldl (fun a t => if t.lastms > a then t.lastms else a) a) ∧
    (l.foldl (fun a t => if t.lastms > a then t.lastms else a) a = a ∨ ∃ t ∈ l, l.foldl (fun a t => if t.lastms > a then t.lastms else a) a = t.lastms) := by
  induction l generalizing a with
  | nil => exact ⟨Nat.le_refl _, by simp, Or.inl rfl⟩
  | cons t l ih =>
    rw [List.foldl_cons]
    obtain ⟨h1, h2, h3⟩ := ih (if t.lastms > a then t.lastms else a)
    have ha : a ≤ (if t.lastms > a then t.lastms else a) ∧ t.lastms ≤ (if t.lastms > a then t.lastms else a) := by
      by_cases h : t.lastms > a
      · rw [if_pos h]; omega
      · rw [if_neg h]; omega
    refine ⟨Nat.le_trans ha.1 h1, ?_, ?_⟩
    · intro u hu
      rcases List.mem_cons.1 hu with rfl | hu
      · exact Nat.le_trans ha.2 h1
      · exact h2 u hu
    · rcases h3 with h3 | ⟨u, hu, h3⟩
      · rw [h3]
        by_cases h : t.lastms > a
        · rw [if_pos h]
          exact Or.inr ⟨t, List.mem_cons_self, rfl⟩
        · rw [if_neg h]
          exact Or.inl rfl
      · exact Or.inr ⟨u, List.mem_cons_of_mem _ hu, h3⟩

theorem delayOk_iff (c : Capa) (ua ty : Bytes) (l : List Track) (t : Track) :
    delayOk c (newest c ua ty l) t = true ↔ ∀ d, c.maxdelay = some d → ∀ u ∈ l, kept c ua ty u = true → u.lastms ≤ t.lastms + d := by
  unfold delayOk
  cases hd : c.maxdelay with
  | none => simp
  | some d =>
    simp only [Option.some.injEq, forall_eq', Bool.not_eq_true', decide_eq_false_iff_not]
    obtain ⟨_, h2, h3⟩ := foldMax (l.filter (kept c ua ty)) 0
    have hn : newest c ua ty l = (l.filter (kept c ua ty)).foldl (fun a t => if t.lastms > a then t.lastms else a) 0 := rfl
    rw [← hn] at h2 h3
    have hif : (if d > newest c ua ty l then newest c ua ty l else d) = min d (newest c ua ty l) := by
      by_cases h : d > newest c ua ty l
      · rw [if_pos h]; omega
      · rw [if_neg h]; omega
    rw [hif]
    constructor
    · intro h u hu hk
      have := h2 u (List.mem_filter.2 ⟨hu, hk⟩)
      omega
    · intro h
      rcases h3 with h3 | ⟨u, hu, h3⟩
      · omega
      · obtain ⟨hu, hk⟩ := List.mem_filter.1 hu
        have := h u hu hk
        omega

theorem mem_supported (c : Capa) (ua ty : Bytes) (l : List Track) (t : Track) :
    t ∈ supported c ua ty l ↔ t ∈ l ∧ kept c ua ty t = true ∧ encOk c t = true ∧ delayOk c (newest c ua ty l) t = true := by
  unfold supported
  rw [List.mem_filter, Bool.and_eq_true, Bool.and_eq_true]
  exact ⟨fun ⟨a, ⟨b, c⟩, d⟩ => ⟨a, b, c, d⟩, fun ⟨a, b, c, d⟩ => ⟨a, ⟨b, c⟩, d⟩⟩

theorem kept_iff {c : Capa} (hw : Written c) {ua : Bytes} (hs : ua = [] ∨ Separate c) {ty : Bytes} {t : Track} :
    kept c ua ty t = true ↔ (ty = [] ∨ t.type = ty) ∧ Codec c ua t := by
  unfold kept
  rw [Bool.and_eq_true, codecOk_iff hw hs]
  simp

/-! ## Wishes of the viewer -/

theorem found_iff (m choice : List Track) (ty v : Bytes) (i : Nat) :
    found m choice ty v i = true ↔ v ≠ [] ∧ find m (ofTracks choice) ty v i = true := by
  unfold found
  by_cases h : v = []
  · rw [if_pos h]
    simp [h]
  · rw [if_neg h]
    by_cases h2 : v = Select.sMinus ∨ v = Select.sNone
    · rw [if_pos h2]
      have : find m (ofTracks choice) ty v i = false := by
        rcases h2 with rfl | rfl <;> rfl
      simp [this]
    · rw [if_neg h2]
      simp [h]

theorem asked_iff (m choice : List Track) (p : Params) (i : Nat) : asked m choice p i = true ↔ Asked m choice p i := by
  unfold asked Asked
  simp only [Bool.or_eq_true, found_iff, List.mem_cons, List.not_mem_nil, or_false]
  constructor
  · rintro (((h | h) | h) | h)
    · exact ⟨_, Or.inl rfl, h⟩
    · exact ⟨_, Or.inr (Or.inl rfl), h⟩
    · exact ⟨_, Or.inr (Or.inr (Or.inl rfl)), h⟩
    · exact ⟨_, Or.inr (Or.inr (Or.inr rfl)), h⟩
  · rintro ⟨q, rfl | rfl | rfl | rfl, h⟩
    · exact Or.inl (Or.inl (Or.inl h))
    · exact Or.inl (Or.inl (Or.inr h))
    · exact Or.inl (Or.inr h)
    · exact Or.inr h

theorem blocked_iff (p : Params) (t : Track) : blocked p t = false ↔ Free p t := by
  unfold blocked Free
  simp only [Bool.or_eq_false_iff, Bool.and_eq_false_iff, decide_eq_false_iff_not, ne_eq, Decidable.not_not]
  constructor
  · rintro ⟨⟨⟨h1, h2⟩, h3⟩, h4⟩
    refine ⟨fun h => h1.resolve_right (fun g => g h), fun h => h2.resolve_right (fun g => g h), fun h => h3.resolve_right (fun g => g h), ?_⟩
    intro h
    rcases h4 with h4 | h4
    · exact h4
    · rcases h with h | h
      · exact absurd h h4.1
      · exact absurd h h4.2
  · rintro ⟨h1, h2, h3, h4⟩
    refine ⟨⟨⟨?_, ?_⟩, ?_⟩, ?_⟩
    · by_cases h : t.type = Select.sAudio
      · exact Or.inl (h1 h)
      · exact Or.inr h
    · by_cases h : t.type = Select.sVideo
      · exact Or.inl (h2 h)
      · exact Or.inr h
    · by_cases h : t.type = sMeta
      · exact Or.inl (h3 h)
      · exact Or.inr h
    · by_cases h : t.type = sSubtitle ∨ t.codec = sSubtitle
      · exact Or.inl (h4 h)
      · exact Or.inr ⟨fun g => h (Or.inl g), fun g => h (Or.inr g)⟩

/-! ## Order -/

theorem mem_insert (o : Order) (t u : Track) (l : List Track) : u ∈ insert o t l ↔ u = t ∨ u ∈ l := by
  induction l with
  | nil => simp [insert]
  | cons v l ih =>
    unfold insert
    split
    · simp
    · rw [List.mem_cons, ih, List.mem_cons]
      constructor
      · rintro (h | h | h)
        · exact Or.inr (Or.inl h)
        · exact Or.inl h
        · exact Or.inr (Or.inr h)
      · rintro (h | h | h)
        · exact Or.inr (Or.inl h)
        · exact Or.inl h
        · exact Or.inr (Or.inr h)

theorem insert_perm (o : Order) (t : Track) (l : List Track) : (insert o t l).Perm (t :: l) := by
  induction l with
  | nil => exact List.Perm.refl _
  | cons v l ih =>
    unfold insert
    split
    · exact List.Perm.refl _
    · exact (List.Perm.cons v ih).trans (List.Perm.swap t v l)

theorem sort_perm_aux (o : Order) (l r : List Track) : (l.foldl (fun r t => insert o t r) r).Perm (l ++ r) := by
  induction l generalizing r with
  | nil => exact List.Perm.refl _
  | cons t l ih =>
    rw [List.foldl_cons]
    refine (ih _).trans ?_
    refine (List.Perm.append_left l (insert_perm o t r)).trans ?_
    exact List.perm_middle

theorem sort_perm (o : Order) (l : List Track) : (sortTracks o l).Perm l := by
  have := sort_perm_aux o l []
  rwa [List.append_nil] at this

theorem mem_sort (o : Order) (l : List Track) (t : Track) : t ∈ sortTracks o l ↔ t ∈ l := (sort_perm o l).mem_iff

theorem insert_sorted (o : Order) (R : Track → Track → Prop) (t : Track) (l : List Track) (hl : l.Pairwise R)
    (hyes : ∀ u ∈ l, before o t u = true → R t u ∧ ∀ v ∈ l, R u v → R t v) (hno : ∀ u ∈ l, before o t u = false → R u t) :
    (insert o t l).Pairwise R := by
  induction l with
  | nil => simp [insert]
  | cons u l ih =>
    obtain ⟨h1, h2⟩ := List.pairwise_cons.1 hl
    unfold insert
    by_cases hb : before o t u = true
    · rw [if_pos hb]
      obtain ⟨h3, h4⟩ := hyes u List.mem_cons_self hb
      refine List.pairwise_cons.2 ⟨?_, hl⟩
      intro v hv
      rcases List.mem_cons.1 hv with rfl | hv
      · exact h3
      · exact h4 v (List.mem_cons_of_mem _ hv) (h1 v hv)
    · rw [if_neg hb]
      refine List.pairwise_cons.2 ⟨?_, ih h2 (fun v hv h => ?_) (fun v hv => hno v (List.mem_cons_of_mem _ hv))⟩
      · intro v hv
        rcases (mem_insert o t v l).1 hv with rfl | hv
        · exact hno u List.mem_cons_self (by simpa using hb)
        · exact h1 v hv
      · obtain ⟨h3, h4⟩ := hyes v (List.mem_cons_of_mem _ hv) h
        exact ⟨h3, fun w hw => h4 w (List.mem_cons_of_mem _ hw)⟩

theorem sort_sorted (o : Order) (R : Track → Track → Prop) (l r : List Track) (hr : r.Pairwise R)
    (hyes : ∀ r' : List Track, r'.Pairwise R → ∀ t, (∃ a b, l = a ++ t :: b ∧ ∀ x ∈ r', x ∈ r ∨ x ∈ a) →
      (∀ u ∈ r', before o t u = true → R t u ∧ ∀ v ∈ r', R u v → R t v) ∧ ∀ u ∈ r', before o t u = false → R u t) :
    (l.foldl (fun r t => insert o t r) r).Pairwise R := by
  induction l generalizing r with
  | nil => exact hr
  | cons t l ih =>
    rw [List.foldl_cons]
    have h0 := hyes r hr t ⟨[], l, rfl, fun x hx => Or.inl hx⟩
    refine ih _ (insert_sorted o R t r hr h0.1 h0.2) ?_
    rintro r' hr' u ⟨a, b, rfl, hx⟩
    refine hyes r' hr' u ⟨t :: a, b, rfl, ?_⟩
    intro x hx'
    rcases hx x hx' with h | h
    · rcases (mem_insert o t x r).1 h with rfl | h
      · exact Or.inr List.mem_cons_self
      · exact Or.inl h
    · exact Or.inr (List.mem_cons_of_mem _ h)

/-! ## Filling -/

theorem fillOne_spec (c : Capa) (ua : Bytes) (p : Params) (s : Bytes) (ts : List Track) (st : List Track × Bool) :
    ∃ new, (fillOne c ua p s ts st).1 = st.1 ++ new ∧
      (∀ u ∈ new, u ∈ ts ∧ takes s u = true ∧ refused c ua (parse s).2.2 = false ∧ (c.nobframes && u.bframes) = false ∧ blocked p u = false) ∧
      ((fillOne c ua p s ts st).2 = true ↔ st.2 = true ∨ new ≠ []) ∧ ((parse s).2.1 = false → new.length ≤ 1) := by
  induction ts generalizing st with
  | nil => exact ⟨[], by simp [fillOne], by simp, by simp [fillOne], by simp⟩
  | cons t ts ih =>
    have lift : ∀ st', (∃ new, (fillOne c ua p s ts st').1 = st'.1 ++ new ∧
        (∀ u ∈ new, u ∈ ts ∧ takes s u = true ∧ refused c ua (parse s).2.2 = false ∧ (c.nobframes && u.bframes) = false ∧ blocked p u = false) ∧
        ((fillOne c ua p s ts st').2 = true ↔ st'.2 = true ∨ new ≠ []) ∧ ((parse s).2.1 = false → new.length ≤ 1)) →
        ∃ new, (fillOne c ua p s ts st').1 = st'.1 ++ new ∧
        (∀ u ∈ new, u ∈ t :: ts ∧ takes s u = true ∧ refused c ua (parse s).2.2 = false ∧ (c.nobframes && u.bframes) = false ∧ blocked p u = false) ∧
        ((fillOne c ua p s ts st').2 = true ↔ st'.2 = true ∨ new ≠ []) ∧ ((parse s).2.1 = false → new.length ≤ 1) := by
      rintro st' ⟨new, h1, h2, h3⟩
      exact ⟨new, h1, fun u hu => ⟨List.mem_cons_of_mem _ (h2 u hu).1, (h2 u hu).2⟩, h3⟩
    by_cases ht : takes s t = true
    · by_cases hr : (refused c ua (parse s).2.2 || (c.nobframes && t.bframes)) = true
      · have he : fillOne c ua p s (t :: ts) st = st := by rw [fillOne, if_pos ht, if_pos hr]
        rw [he]
        exact ⟨[], by simp, by simp, by simp, by simp⟩
      · have hr' := hr
        rw [Bool.not_eq_true, Bool.or_eq_false_iff] at hr'
        by_cases hb : blocked p t = true
        · have he : fillOne c ua p s (t :: ts) st = fillOne c ua p s ts st := by rw [fillOne, if_pos ht, if_neg hr, if_pos hb]
          rw [he]
          exact lift st (ih st)
        · by_cases hm : (parse s).2.1 = true
          · have he : fillOne c ua p s (t :: ts) st = fillOne c ua p s ts (st.1 ++ [t], true) := by
              rw [fillOne, if_pos ht, if_neg hr, if_neg hb, if_pos hm]
            rw [he]
            obtain ⟨new, h1, h2, h3, _⟩ := ih (st.1 ++ [t], true)
            refine ⟨t :: new, by rw [h1]; simp, ?_, ?_, fun h => by rw [hm] at h; cases h⟩
            · intro u hu
              rcases List.mem_cons.1 hu with rfl | hu
              · exact ⟨List.mem_cons_self, ht, hr'.1, hr'.2, by simpa using hb⟩
              · exact ⟨List.mem_cons_of_mem _ (h2 u hu).1, (h2 u hu).2⟩
            · rw [h3]
              simp
          · have he : fillOne c ua p s (t :: ts) st = (st.1 ++ [t], true) := by
              rw [fillOne, if_pos ht, if_neg hr, if_neg hb, if_neg hm]
            rw [he]
            refine ⟨[t], rfl, ?_, by simp, by simp⟩
            intro u hu
            rw [List.mem_singleton] at hu
            subst hu
            exact ⟨List.mem_cons_self, ht, hr'.1, hr'.2, by simpa using hb⟩
    · have he : fillOne c ua p s (t :: ts) st = fillOne c ua p s ts st := by rw [fillOne, if_neg ht]
      rw [he]
      exact lift st (ih st)

theorem fillOne_complete (c : Capa) (ua : Bytes) (p : Params) (s : Bytes) (ts : List Track) (st : List Track × Bool)
    (hr : refused c ua (parse s).2.2 = false) (hn : ∀ u ∈ ts, takes s u = true → (c.nobframes && u.bframes) = false)
    (t : Track) (ht : t ∈ ts) (h1 : takes s t = true) (h2 : blocked p t = false) :
    (fillOne c ua p s ts st).2 = true ∧ ((parse s).2.1 = true → t ∈ (fillOne c ua p s ts st).1) := by
  induction ts generalizing st with
  | nil => simp at ht
  | cons v ts ih =>
    have hn' := fun u hu => hn u (List.mem_cons_of_mem _ hu)
    by_cases hv : takes s v = true
    · have hg : ¬ (refused c ua (parse s).2.2 || (c.nobframes && v.bframes)) = true := by
        rw [hr, hn v List.mem_cons_self hv]
        simp
      by_cases hb : blocked p v = true
      · have he : fillOne c ua p s (v :: ts) st = fillOne c ua p s ts st := by rw [fillOne, if_pos hv, if_neg hg, if_pos hb]
        rw [he]
        rcases List.mem_cons.1 ht with rfl | ht
        · rw [hb] at h2; cases h2
        · exact ih st hn' ht
      · by_cases hm : (parse s).2.1 = true
        · have he : fillOne c ua p s (v :: ts) st = fillOne c ua p s ts (st.1 ++ [v], true) := by
            rw [fillOne, if_pos hv, if_neg hg, if_neg hb, if_pos hm]
          rw [he]
          obtain ⟨new, g1, _, g3, _⟩ := fillOne_spec c ua p s ts (st.1 ++ [v], true)
          rcases List.mem_cons.1 ht with rfl | ht
          · exact ⟨g3.2 (Or.inl rfl), fun _ => by rw [g1]; simp⟩
          · exact ih _ hn' ht
        · have he : fillOne c ua p s (v :: ts) st = (st.1 ++ [v], true) := by
            rw [fillOne, if_pos hv, if_neg hg, if_neg hb, if_neg hm]
          rw [he]
          exact ⟨rfl, fun h => absurd h hm⟩
    · have he : fillOne c ua p s (v :: ts) st = fillOne c ua p s ts st := by rw [fillOne, if_neg hv]
      rw [he]
      rcases List.mem_cons.1 ht with rfl | ht
      · exact absurd h1 hv
      · exact ih st hn' ht

/-- What is added for a text that is not for several is the first in the order. -/
theorem fillOne_first (c : Capa) (ua : Bytes) (p : Params) (s : Bytes) (R : Track → Track → Prop) (hR : ∀ t, R t t) (ts : List Track) (hts : ts.Pairwise R)
    (hm : (parse s).2.1 = false) (st : List Track × Bool) :
    ∀ u ∈ (fillOne c ua p s ts st).1, u ∈ st.1 ∨ ∀ t ∈ ts, takes s t = true → (c.nobframes && t.bframes) = false → blocked p t = false → R u t := by
  induction ts generalizing st with
  | nil => intro u hu; exact Or.inl hu
  | cons v ts ih =>
    obtain ⟨h1, h2⟩ := List.pairwise_cons.1 hts
    intro u hu
    by_cases hv : takes s v = true
    · by_cases hg : (refused c ua (parse s).2.2 || (c.nobframes && v.bframes)) = true
      · have he : fillOne c ua p s (v :: ts) st = st := by rw [fillOne, if_pos hv, if_pos hg]
        rw [he] at hu
        exact Or.inl hu
      · by_cases hb : blocked p v = true
        · have he : fillOne c ua p s (v :: ts) st = fillOne c ua p s ts st := by rw [fillOne, if_pos hv, if_neg hg, if_pos hb]
          rw [he] at hu
          rcases ih h2 st u hu with h | h
          · exact Or.inl h
          · refine Or.inr ?_
            intro t ht
            rcases List.mem_cons.1 ht with rfl | ht
            · intro _ _ h3
              rw [hb] at h3; cases h3
            · exact h t ht
        · have he : fillOne c ua p s (v :: ts) st = (st.1 ++ [v], true) := by
            rw [fillOne, if_pos hv, if_neg hg, if_neg hb, if_neg (by rw [hm]; simp)]
          rw [he] at hu
          rcases List.mem_append.1 hu with hu | hu
          · exact Or.inl hu
          · rw [List.mem_singleton] at hu
            subst hu
            refine Or.inr ?_
            intro t ht _ _ _
            rcases List.mem_cons.1 ht with rfl | ht
            · exact hR _
            · exact h1 t ht
    · have he : fillOne c ua p s (v :: ts) st = fillOne c ua p s ts st := by rw [fillOne, if_neg hv]
      rw [he] at hu
      rcases ih h2 st u hu with h | h
      · exact Or.inl h
      · refine Or.inr ?_
        intro t ht
        rcases List.mem_cons.1 ht with rfl | ht
        · intro h3
          exact absurd h3 hv
        · exact h t ht

/-- What may be said of a track that was added for a text. -/
def Good (c : Capa) (ua : Bytes) (p : Params) (srt : List Track) (R : Track → Track → Prop) (s : Bytes) (u : Track) : Prop :=
  u ∈ srt ∧ takes s u = true ∧ refused c ua (parse s).2.2 = false ∧ (c.nobframes && u.bframes) = false ∧ blocked p u = false ∧
  ((parse s).2.1 = true ∨ ∀ t ∈ srt, takes s t = true → (c.nobframes && t.bframes) = false → blocked p t = false → R u t)

theorem fillOne_good (c : Capa) (ua : Bytes) (p : Params) (s : Bytes) (R : Track → Track → Prop) (hR : ∀ t, R t t) (srt : List Track) (hts : srt.Pairwise R)
    (st : List Track × Bool) : ∀ u ∈ (fillOne c ua p s srt st).1, u ∈ st.1 ∨ Good c ua p srt R s u := by
  intro u hu
  by_cases hst : u ∈ st.1
  · exact Or.inl hst
  · obtain ⟨new, h1, h2, _⟩ := fillOne_spec c ua p s srt st
    have hn : u ∈ new := by
      rw [h1] at hu
      exact (List.mem_append.1 hu).resolve_left hst
    obtain ⟨a1, a2, a3, a4, a5⟩ := h2 u hn
    refine Or.inr ⟨a1, a2, a3, a4, a5, ?_⟩
    by_cases hm : (parse s).2.1 = true
    · exact Or.inl hm
    · exact Or.inr ((fillOne_first c ua p s R hR srt hts (by simpa using hm) st u hu).resolve_left hst)

theorem fillTexts_spec (c : Capa) (ua : Bytes) (p : Params) (R : Track → Track → Prop) (hR : ∀ t, R t t) (srt : List Track) (hts : srt.Pairwise R)
    (g : List Bytes) (st : List Track × Bool) :
    ∃ new, (fillTexts c ua p srt g st).1 = st.1 ++ new ∧ (∀ u ∈ new, ∃ s ∈ g, Good c ua p srt R s u) ∧
      ((fillTexts c ua p srt g st).2 = true ↔ st.2 = true ∨ new ≠ []) ∧
      ((∀ s ∈ g, (parse s).2.1 = false) → new.length ≤ (if st.2 then 0 else 1)) := by
  induction g generalizing st with
  | nil => exact ⟨[], by simp [fillTexts], by simp, by simp [fillTexts], by simp⟩
  | cons s g ih =>
    by_cases h : (st.2 && !(parse s).2.1) = true
    · have he : fillTexts c ua p srt (s :: g) st = fillTexts c ua p srt g st := by rw [fillTexts, if_pos h]
      rw [he]
      obtain ⟨new, h1, h2, h3, h4⟩ := ih st
      refine ⟨new, h1, ?_, h3, fun hm => h4 (fun s hs => hm s (List.mem_cons_of_mem _ hs))⟩
      intro u hu
      obtain ⟨r, hr, h2⟩ := h2 u hu
      exact ⟨r, List.mem_cons_of_mem _ hr, h2⟩
    · have he : fillTexts c ua p srt (s :: g) st = fillTexts c ua p srt g (fillOne c ua p s srt st) := by rw [fillTexts, if_neg h]
      rw [he]
      obtain ⟨new1, h1, h2, h3, h4⟩ := fillOne_spec c ua p s srt st
      obtain ⟨new2, g1, g2, g3, g4⟩ := ih (fillOne c ua p s srt st)
      by_cases hst : ∀ u ∈ new1, Good c ua p srt R s u
      · refine ⟨new1 ++ new2, by rw [g1, h1, List.append_assoc], ?_, ?_, ?_⟩
        · intro u hu
          rcases List.mem_append.1 hu with hu | hu
          · exact ⟨s, List.mem_cons_self, hst u hu⟩
          · obtain ⟨r, hr, h2⟩ := g2 u hu
            exact ⟨r, List.mem_cons_of_mem _ hr, h2⟩
        · rw [g3, h3]
          simp only [ne_eq, List.append_eq_nil_iff, Classical.not_and_iff_not_or_not]
          exact or_assoc
        · intro hm
          have ha := h4 (hm s List.mem_cons_self)
          have hb := g4 (fun s hs => hm s (List.mem_cons_of_mem _ hs))
          have hs2 : st.2 = false := by
            rw [hm s List.mem_cons_self] at h
            simpa using h
          rw [hs2, List.length_append]
          by_cases hn : new1 = []
          · have : ¬ (fillOne c ua p s srt st).2 = true := by
              rw [h3, hs2]
              simp [hn]
            rw [if_neg this] at hb
            simp [hn, hb]
          · rw [if_pos (h3.2 (Or.inr hn))] at hb
            simpa [Nat.le_zero.1 hb] using ha
      · exfalso
        apply hst
        intro u hu
        obtain ⟨a1, a2, a3, a4, a5⟩ := h2 u hu
        refine ⟨a1, a2, a3, a4, a5, ?_⟩
        by_cases hm : (parse s).2.1 = true
        · exact Or.inl hm
        · right
          have hm' : (parse s).2.1 = false := by simpa using hm
          have he2 : (fillOne c ua p s srt ([], st.2)).1 = new1 := by
            have hsh : ∀ ts : List Track, ∀ a b, (fillOne c ua p s ts (a, b)).1 = a ++ (fillOne c ua p s ts ([], b)).1 := by
              intro ts
              induction ts with
              | nil => intro a b; simp [fillOne]
              | cons v ts ihv =>
                intro a b
                unfold fillOne
                by_cases e1 : takes s v = true
                · rw [if_pos e1, if_pos e1]
                  by_cases e2 : (refused c ua (parse s).2.2 || (c.nobframes && v.bframes)) = true
                  · rw [if_pos e2, if_pos e2]
                    simp
                  · rw [if_neg e2, if_neg e2]
                    by_cases e3 : blocked p v = true
                    · rw [if_pos e3, if_pos e3, ihv]
                    · rw [if_neg e3, if_neg e3, if_neg hm, if_neg hm]
                      simp
                · rw [if_neg e1, if_neg e1, ihv]
            have := hsh srt st.1 st.2
            rw [show (st.1, st.2) = st from rfl, h1] at this
            exact (List.append_cancel_left this).symm
          have := fillOne_first c ua p s R hR srt hts hm' ([], st.2) u (by rw [he2]; exact hu)
          exact this.resolve_left (by simp)

theorem fillTexts_complete (c : Capa) (ua : Bytes) (p : Params) (srt : List Track) (g : List Bytes) (st : List Track × Bool)
    (s : Bytes) (hs : s ∈ g) (hr : refused c ua (parse s).2.2 = false) (hn : ∀ u ∈ srt, takes s u = true → (c.nobframes && u.bframes) = false)
    (t : Track) (ht : t ∈ srt) (h1 : takes s t = true) (h2 : blocked p t = false) :
    (fillTexts c ua p srt g st).2 = true ∧ ((parse s).2.1 = true → t ∈ (fillTexts c ua p srt g st).1) := by
  have mono : ∀ (g : List Bytes) (st : List Track × Bool), (st.2 = true → (fillTexts c ua p srt g st).2 = true) ∧ ∀ u ∈ st.1, u ∈ (fillTexts c ua p srt g st).1 := by
    intro g
    induction g with
    | nil => intro st; exact ⟨id, fun u hu => hu⟩
    | cons r g ih =>
      intro st
      unfold fillTexts
      split
      · exact ih st
      · obtain ⟨new, e1, _, e3, _⟩ := fillOne_spec c ua p r srt st
        exact ⟨fun h => (ih _).1 (e3.2 (Or.inl h)), fun u hu => (ih _).2 u (by rw [e1]; exact List.mem_append_left _ hu)⟩
  induction g generalizing st with
  | nil => simp at hs
  | cons r g ih =>
    rcases List.mem_cons.1 hs with rfl | hs
    · by_cases h : (st.2 && !(parse s).2.1) = true
      · have he : fillTexts c ua p srt (s :: g) st = fillTexts c ua p srt g st := by rw [fillTexts, if_pos h]
        rw [he]
        rw [Bool.and_eq_true, Bool.not_eq_true'] at h
        exact ⟨(mono g st).1 h.1, fun hm => by rw [h.2] at hm; cases hm⟩
      · have he : fillTexts c ua p srt (s :: g) st = fillTexts c ua p srt g (fillOne c ua p s srt st) := by rw [fillTexts, if_neg h]
        rw [he]
        obtain ⟨a, b⟩ := fillOne_complete c ua p s srt st hr hn t ht h1 h2
        exact ⟨(mono g _).1 a, fun hm => (mono g _).2 t (b hm)⟩
    · unfold fillTexts
      split
      · exact ih st hs
      · exact ih _ hs

theorem has1_iff (c : Capa) (ua : Bytes) (res : List Track) (g : List Bytes) :
    has1 c ua res g = true ↔ ∃ s ∈ g, refused c ua (parse s).2.2 = false ∧ ∃ u ∈ res, takes s u = true := by
  unfold has1
  rw [List.any_eq_true]
  constructor
  · rintro ⟨s, hs, h⟩
    rw [Bool.and_eq_true, Bool.not_eq_true', List.any_eq_true] at h
    exact ⟨s, hs, h⟩
  · rintro ⟨s, hs, h⟩
    refine ⟨s, hs, ?_⟩
    rw [Bool.and_eq_true, Bool.not_eq_true', List.any_eq_true]
    exact h

theorem fillGroup_spec (c : Capa) (ua : Bytes) (p : Params) (R : Track → Track → Prop) (hR : ∀ t, R t t) (srt : List Track) (hts : srt.Pairwise R)
    (res : List Track) (g : List Bytes) :
    ∃ new, fillGroup c ua p srt res g = res ++ new ∧ (∀ u ∈ new, ∃ s ∈ g, Good c ua p srt R s u) ∧
      ((∀ s ∈ g, (parse s).2.1 = false) → new.length ≤ 1) ∧
      (∀ s ∈ g, refused c ua (parse s).2.2 = false → (∀ u ∈ srt, takes s u = true → (c.nobframes && u.bframes) = false) →
        ∀ t ∈ srt, takes s t = true → blocked p t = false →
        (∃ u ∈ fillGroup c ua p srt res g, ∃ r ∈ g, takes r u = true ∧ refused c ua (parse r).2.2 = false) ∧
        ((parse s).2.1 = true → t ∈ fillGroup c ua p srt res g)) := by
  by_cases h : (!has1 c ua res g || g.any (fun s => (parse s).2.1)) = true
  · have he : fillGroup c ua p srt res g = (fillTexts c ua p srt g (res, has1 c ua res g)).1 := by unfold fillGroup; rw [if_pos h]
    obtain ⟨new, h1, h2, h3, h4⟩ := fillTexts_spec c ua p R hR srt hts g (res, has1 c ua res g)
    refine ⟨new, by rw [he, h1], h2, ?_, ?_⟩
    · intro hm
      have := h4 hm
      split at this <;> omega
    · intro s hs hr hn t ht ht1 ht2
      obtain ⟨a, b⟩ := fillTexts_complete c ua p srt g (res, has1 c ua res g) s hs hr hn t ht ht1 ht2
      rw [he]
      refine ⟨?_, b⟩
      rcases h3.1 a with h5 | h5
      · obtain ⟨r, hr, h6, u, hu, h7⟩ := (has1_iff c ua res g).1 h5
        exact ⟨u, by rw [h1]; exact List.mem_append_left _ hu, r, hr, h7, h6⟩
      · obtain ⟨u, hu⟩ := List.exists_mem_of_ne_nil _ h5
        obtain ⟨r, hr, h6⟩ := h2 u hu
        exact ⟨u, by rw [h1]; exact List.mem_append_right _ hu, r, hr, h6.2.1, h6.2.2.1⟩
  · have he : fillGroup c ua p srt res g = res := by unfold fillGroup; rw [if_neg h]
    rw [Bool.not_eq_true, Bool.or_eq_false_iff, Bool.not_eq_false'] at h
    refine ⟨[], by rw [he]; simp, by simp, by simp, ?_⟩
    intro s hs hr hn t ht ht1 ht2
    rw [he]
    constructor
    · obtain ⟨r, hr, h6, u, hu, h7⟩ := (has1_iff c ua res g).1 h.1
      exact ⟨u, hu, r, hr, h7, h6⟩
    · intro hm
      have := List.any_eq_false.1 h.2 s hs
      exact absurd hm this

theorem fill_spec (c : Capa) (ua : Bytes) (p : Params) (R : Track → Track → Prop) (hR : ∀ t, R t t) (srt : List Track) (hts : srt.Pairwise R)
    (k : List (List Bytes)) (res : List Track) :
    ∃ new, k.foldl (fillGroup c ua p srt) res = res ++ new ∧ (∀ u ∈ new, ∃ g ∈ k, ∃ s ∈ g, Good c ua p srt R s u) ∧
      ((∀ g ∈ k, ∀ s ∈ g, (parse s).2.1 = false) → new.length ≤ k.length) ∧
      (∀ g ∈ k, ∀ s ∈ g, refused c ua (parse s).2.2 = false → (∀ u ∈ srt, takes s u = true → (c.nobframes && u.bframes) = false) →
        ∀ t ∈ srt, takes s t = true → blocked p t = false →
        (∃ u ∈ k.foldl (fillGroup c ua p srt) res, ∃ r ∈ g, takes r u = true ∧ refused c ua (parse r).2.2 = false) ∧
        ((parse s).2.1 = true → t ∈ k.foldl (fillGroup c ua p srt) res)) := by
  induction k generalizing res with
  | nil => exact ⟨[], by simp, by simp, by simp, by simp⟩
  | cons g k ih =>
    obtain ⟨new1, h1, h2, h3, h4⟩ := fillGroup_spec c ua p R hR srt hts res g
    obtain ⟨new2, g1, g2, g3, g4⟩ := ih (fillGroup c ua p srt res g)
    rw [List.foldl_cons]
    have sub : ∀ u ∈ fillGroup c ua p srt res g, u ∈ k.foldl (fillGroup c ua p srt) (fillGroup c ua p srt res g) := by
      intro u hu
      rw [g1]
      exact List.mem_append_left _ hu
    refine ⟨new1 ++ new2, by rw [g1, h1, List.append_assoc], ?_, ?_, ?_⟩
    · intro u hu
      rcases List.mem_append.1 hu with hu | hu
      · exact ⟨g, List.mem_cons_self, h2 u hu⟩
      · obtain ⟨g', hg', h⟩ := g2 u hu
        exact ⟨g', List.mem_cons_of_mem _ hg', h⟩
    · intro hm
      have a := h3 (hm g List.mem_cons_self)
      have b := g3 (fun g' hg' => hm g' (List.mem_cons_of_mem _ hg'))
      rw [List.length_append, List.length_cons]
      omega
    · intro g' hg' s hs hr hn t ht ht1 ht2
      rcases List.mem_cons.1 hg' with rfl | hg'
      · obtain ⟨⟨u, hu, h5⟩, h6⟩ := h4 s hs hr hn t ht ht1 ht2
        exact ⟨⟨u, sub u hu, h5⟩, fun hm => sub t (h6 hm)⟩
      · exact g4 g' hg' s hs hr hn t ht ht1 ht2

/-! ## The combination -/

section
variable {α β : Type} (T : α → β → Bool) (bad multi : α → Bool)

/-- How many a text counts for. -/
def cnt (l : List β) (s : α) : Nat :=
  if bad s then 0 else if multi s then (l.filter (T s)).length else min 1 (l.filter (T s)).length

theorem cnt_le (l : List β) (s : α) : cnt T bad multi l s ≤ (l.filter (T s)).length := by
  unfold cnt
  split
  · omega
  · split
    · exact Nat.le_refl _
    · omega

theorem length_split (p : β → Bool) (l : List β) : (l.filter p).length + (l.filter fun t => !p t).length = l.length := by
  induction l with
  | nil => rfl
  | cons t l ih =>
    rw [List.filter_cons, List.filter_cons]
    cases h : p t <;> simp only [Bool.not_true, Bool.not_false, if_true, List.length_cons, Bool.false_eq_true, if_false] <;> omega

theorem cnt_rest (r s : α) (l : List β) (h : ∀ t ∈ l, ¬ (T r t = true ∧ T s t = true)) :
    cnt T bad multi (l.filter fun t => !T r t) s = cnt T bad multi l s := by
  have : (l.filter fun t => !T r t).filter (T s) = l.filter (T s) := by
    rw [List.filter_filter]
    apply List.filter_congr
    intro t ht
    cases h1 : T s t with
    | false => rfl
    | true =>
      cases h2 : T r t with
      | false => rfl
      | true => exact absurd ⟨h2, h1⟩ (h t ht)
  unfold cnt
  rw [this]

theorem sum_le (S : List α) (l : List β) (hd : S.Pairwise fun r s => ∀ t ∈ l, ¬ (T r t = true ∧ T s t = true)) :
    (S.map (cnt T bad multi l)).sum ≤ l.length := by
  induction S generalizing l with
  | nil => simp
  | cons s S ih =>
    obtain ⟨h1, h2⟩ := List.pairwise_cons.1 hd
    rw [List.map_cons, List.sum_cons]
    have he : S.map (cnt T bad multi l) = S.map (cnt T bad multi (l.filter fun t => !T s t)) := by
      apply List.map_congr_left
      intro r hr
      exact (cnt_rest T bad multi s r l (h1 r hr)).symm
    rw [he]
    have := ih (l.filter fun t => !T s t) (h2.imp (fun h t ht => h t (List.mem_filter.1 ht).1))
    have := cnt_le T bad multi l s
    have := length_split (T s) l
    omega

theorem le_one_of_eq {l : List β} (hn : l.Nodup) (h : ∀ t ∈ l, ∀ u ∈ l, t = u) : l.length ≤ 1 := by
  cases l with
  | nil => simp
  | cons a l =>
    cases l with
    | nil => simp
    | cons b l =>
      exfalso
      have := h a (by simp) b (by simp)
      rw [List.nodup_cons] at hn
      exact hn.1 (by rw [this]; exact List.mem_cons_self)

theorem eq_of_le_one {l : List β} (h : l.length ≤ 1) : ∀ t ∈ l, ∀ u ∈ l, t = u := by
  cases l with
  | nil => simp
  | cons a l =>
    cases l with
    | nil =>
      intro t ht u hu
      rw [List.mem_singleton] at ht hu
      rw [ht, hu]
    | cons b l => simp at h

theorem sum_iff (S : List α) (l : List β) (hl : l.Nodup) (hd : S.Pairwise fun r s => ∀ t ∈ l, ¬ (T r t = true ∧ T s t = true)) :
    (S.map (cnt T bad multi l)).sum = l.length ↔
      (∀ t ∈ l, ∃ s ∈ S, T s t = true ∧ bad s = false) ∧
      ∀ s ∈ S, multi s = false → bad s = false → ∀ t ∈ l, ∀ u ∈ l, T s t = true → T s u = true → t = u := by
  induction S generalizing l with
  | nil =>
    cases l with
    | nil => simp
    | cons t l =>
      constructor
      · intro h
        simp at h
      · rintro ⟨h, _⟩
        obtain ⟨s, hs, _⟩ := h t List.mem_cons_self
        simp at hs
  | cons s S ih =>
    obtain ⟨h1, h2⟩ := List.pairwise_cons.1 hd
    rw [List.map_cons, List.sum_cons]
    have he : S.map (cnt T bad multi l) = S.map (cnt T bad multi (l.filter fun t => !T s t)) := by
      apply List.map_congr_left
      intro r hr
      exact (cnt_rest T bad multi s r l (h1 r hr)).symm
    rw [he]
    have hd' : S.Pairwise fun r s' => ∀ t ∈ l.filter (fun t => !T s t), ¬ (T r t = true ∧ T s' t = true) := h2.imp (fun h t ht => h t (List.mem_filter.1 ht).1)
    have i1 := sum_le T bad multi S (l.filter fun t => !T s t) hd'
    have i2 := cnt_le T bad multi l s
    have i3 := length_split (T s) l
    have i4 := ih (l.filter fun t => !T s t) (hl.filter _) hd'
    have hsum : cnt T bad multi l s + (S.map (cnt T bad multi (l.filter fun t => !T s t))).sum = l.length ↔
        cnt T bad multi l s = (l.filter (T s)).length ∧ (S.map (cnt T bad multi (l.filter fun t => !T s t))).sum = (l.filter fun t => !T s t).length := by
      omega
    rw [hsum, i4]
    have hcnt : cnt T bad multi l s = (l.filter (T s)).length ↔
        (∀ t ∈ l, T s t = true → bad s = false) ∧ (multi s = false → bad s = false → ∀ t ∈ l, ∀ u ∈ l, T s t = true → T s u = true → t = u) := by
      unfold cnt
      by_cases hb : bad s = true
      · rw [if_pos hb]
        constructor
        · intro h
          refine ⟨?_, fun _ h => by rw [hb] at h; cases h⟩
          intro t ht hT
          have : t ∈ l.filter (T s) := List.mem_filter.2 ⟨ht, hT⟩
          rw [List.eq_nil_of_length_eq_zero h.symm] at this
          simp at this
        · rintro ⟨h, _⟩
          have : l.filter (T s) = [] := by
            apply List.filter_eq_nil_iff.2
            intro t ht hT
            rw [hb] at h
            exact absurd (h t ht hT) (by simp)
          rw [this]
          rfl
      · rw [if_neg hb]
        have hb' : bad s = false := by simpa using hb
        by_cases hm : multi s = true
        · rw [if_pos hm]
          exact ⟨fun _ => ⟨fun _ _ _ => hb', fun h => by rw [hm] at h; cases h⟩, fun _ => rfl⟩
        · rw [if_neg hm]
          have hm' : multi s = false := by simpa using hm
          constructor
          · intro h
            have hle : (l.filter (T s)).length ≤ 1 := by omega
            exact ⟨fun _ _ _ => hb', fun _ _ t ht u hu h1 h2 => eq_of_le_one hle t (List.mem_filter.2 ⟨ht, h1⟩) u (List.mem_filter.2 ⟨hu, h2⟩)⟩
          · rintro ⟨_, h⟩
            have hle : (l.filter (T s)).length ≤ 1 := by
              apply le_one_of_eq (hl.filter _)
              intro t ht u hu
              obtain ⟨ht1, ht2⟩ := List.mem_filter.1 ht
              obtain ⟨hu1, hu2⟩ := List.mem_filter.1 hu
              exact h hm' hb' t ht1 u hu1 ht2 hu2
            omega
    rw [hcnt]
    constructor
    · rintro ⟨⟨a1, a2⟩, b1, b2⟩
      constructor
      · intro t ht
        by_cases hT : T s t = true
        · exact ⟨s, List.mem_cons_self, hT, a1 t ht hT⟩
        · obtain ⟨r, hr, h⟩ := b1 t (List.mem_filter.2 ⟨ht, by simpa using hT⟩)
          exact ⟨r, List.mem_cons_of_mem _ hr, h⟩
      · intro r hr hm hb t ht u hu h3 h4
        rcases List.mem_cons.1 hr with rfl | hr
        · exact a2 hm hb t ht u hu h3 h4
        · have n3 : T s t = false := by
            cases h : T s t with
            | false => rfl
            | true => exact absurd ⟨h, h3⟩ (h1 r hr t ht)
          have n4 : T s u = false := by
            cases h : T s u with
            | false => rfl
            | true => exact absurd ⟨h, h4⟩ (h1 r hr u hu)
          exact b2 r hr hm hb t (List.mem_filter.2 ⟨ht, by rw [n3]; rfl⟩) u (List.mem_filter.2 ⟨hu, by rw [n4]; rfl⟩) h3 h4
    · rintro ⟨a, b⟩
      refine ⟨⟨?_, fun hm hb => b s List.mem_cons_self hm hb⟩, ?_, ?_⟩
      · intro t ht hT
        obtain ⟨r, hr, h3, h4⟩ := a t ht
        rcases List.mem_cons.1 hr with rfl | hr
        · exact h4
        · exact absurd ⟨hT, h3⟩ (h1 r hr t ht)
      · intro t ht
        obtain ⟨ht, hT⟩ := List.mem_filter.1 ht
        obtain ⟨r, hr, h3, h4⟩ := a t ht
        rcases List.mem_cons.1 hr with rfl | hr
        · rw [h3] at hT
          cases hT
        · exact ⟨r, hr, h3, h4⟩
      · intro r hr hm hb t ht u hu
        exact b r (List.mem_cons_of_mem _ hr) hm hb t (List.mem_filter.1 ht).1 u (List.mem_filter.1 hu).1

end

theorem count_eq (c : Capa) (ua : Bytes) (l : List Track) (s : Bytes) :
    count c ua l s = cnt takes (fun s => refused c ua (parse s).2.2) (fun s => (parse s).2.1) l s := rfl

theorem total_iff {c : Capa} {ua : Bytes} {k : List (List Bytes)} (hk : ∀ g ∈ k, ∀ s ∈ g, Formed s) (hd : Distinct k) (l : List Track) (hl : l.Nodup) :
    total c ua l k = l.length ↔ Room c ua k l := by
  have hf : ∀ s ∈ k.flatten, Formed s := by
    intro s hs
    obtain ⟨g, hg, hs⟩ := List.mem_flatten.1 hs
    exact hk g hg s hs
  have hd' : k.flatten.Pairwise fun r s => ∀ t ∈ l, ¬ (takes r t = true ∧ takes s t = true) := by
    refine List.Pairwise.imp_of_mem ?_ hd
    intro r s hr hs h t _
    rw [takes_iff (hf r hr), takes_iff (hf s hs)]
    exact h t
  have := sum_iff takes (fun s => refused c ua (parse s).2.2) (fun s => (parse s).2.1) k.flatten l hl hd'
  have he : total c ua l k = (k.flatten.map (cnt takes (fun s => refused c ua (parse s).2.2) (fun s => (parse s).2.1) l)).sum := rfl
  rw [he, this]
  unfold Room
  constructor
  · rintro ⟨h1, h2⟩
    constructor
    · intro t ht
      obtain ⟨s, hs, h3, h4⟩ := h1 t ht
      exact ⟨s, hs, (takes_iff (hf s hs) t).1 h3, (not_textRefused (hf s hs) c ua).1 h4⟩
    · intro s hs hm hr t ht u hu h3 h4
      refine h2 s hs ?_ ((not_textRefused (hf s hs) c ua).2 hr) t ht u hu ((takes_iff (hf s hs) t).2 h3) ((takes_iff (hf s hs) u).2 h4)
      rw [← Bool.not_eq_true, several_iff (hf s hs)]
      exact hm
  · rintro ⟨h1, h2⟩
    constructor
    · intro t ht
      obtain ⟨s, hs, h3, h4⟩ := h1 t ht
      exact ⟨s, hs, (takes_iff (hf s hs) t).2 h3, (not_textRefused (hf s hs) c ua).2 h4⟩
    · intro s hs hm hr t ht u hu h3 h4
      refine h2 s hs ?_ ((not_textRefused (hf s hs) c ua).1 hr) t ht u hu ((takes_iff (hf s hs) t).1 h3) ((takes_iff (hf s hs) u).1 h4)
      rw [← several_iff (hf s hs), hm]
      simp

theorem total_nil (c : Capa) (ua : Bytes) (k : List (List Bytes)) : total c ua [] k = 0 := by
  unfold total
  have : ∀ S : List Bytes, (S.map (count c ua [])).sum = 0 := by
    intro S
    induction S with
    | nil => rfl
    | cons s S ih =>
      rw [List.map_cons, List.sum_cons, ih]
      unfold count
      simp
  exact this _

/-- The state of `best` when part of the combinations was seen. -/
structure Seen (c : Capa) (ua : Bytes) (res valid : List Track) (cs pre : List (List (List Bytes))) (st : Nat × Nat × Nat) : Prop where
  upper : ∀ k ∈ pre, k ≠ [] → total c ua res k = res.length → st.2.1 = res.length ∧ res.length + total c ua valid k ≤ st.2.2
  from_ : st = (0, 0, 0) ∨ ∃ k, cs[st.1]? = some k ∧ k ≠ [] ∧ total c ua res k = res.length ∧ st.2 = (res.length, res.length + total c ua valid k)

theorem best_seen (c : Capa) (ua : Bytes) (res valid : List Track) (cs ks : List (List (List Bytes))) (pre : List (List (List Bytes)))
    (hcs : cs = pre ++ ks) (st : Nat × Nat × Nat) (h : Seen c ua res valid cs pre st) :
    ∃ st', best c ua res valid ks pre.length st = st'.1 ∧ Seen c ua res valid cs cs st' := by
  induction ks generalizing pre st with
  | nil =>
    rw [List.append_nil] at hcs
    subst hcs
    exact ⟨st, rfl, h⟩
  | cons k ks ih =>
    have hcs' : cs = (pre ++ [k]) ++ ks := by rw [hcs]; simp
    have hlen : (pre ++ [k]).length = pre.length + 1 := by simp
    by_cases hc : k ≠ [] ∧ total c ua res k = res.length ∧
        (total c ua res k > st.2.1 ∨ (total c ua res k = st.2.1 ∧ total c ua res k + total c ua valid k > st.2.2))
    · have he : best c ua res valid (k :: ks) pre.length st =
          best c ua res valid ks (pre ++ [k]).length (pre.length, total c ua res k, total c ua res k + total c ua valid k) := by
        rw [hlen]
        have : best c ua res valid (k :: ks) pre.length st = if k ≠ [] ∧ total c ua res k = res.length ∧
            (total c ua res k > st.2.1 ∨ (total c ua res k = st.2.1 ∧ total c ua res k + total c ua valid k > st.2.2)) then
            best c ua res valid ks (pre.length + 1) (pre.length, total c ua res k, total c ua res k + total c ua valid k)
            else best c ua res valid ks (pre.length + 1) st := rfl
        rw [this, if_pos hc]
      rw [he]
      obtain ⟨h1, h2, h3⟩ := hc
      refine ih (pre ++ [k]) hcs' _ ⟨?_, Or.inr ⟨k, ?_, h1, h2, by rw [h2]⟩⟩
      · intro k' hk' hne ht
        rcases List.mem_append.1 hk' with hk' | hk'
        · obtain ⟨a, b⟩ := h.upper k' hk' hne ht
          refine ⟨h2, ?_⟩
          show _ ≤ total c ua res k + total c ua valid k
          rcases h3 with h3 | h3
          · omega
          · omega
        · rw [List.mem_singleton] at hk'
          subst hk'
          exact ⟨h2, by show _ ≤ total c ua res k' + total c ua valid k'; omega⟩
      · rw [hcs]
        show (pre ++ k :: ks)[pre.length]? = some k
        simp
    · have he : best c ua res valid (k :: ks) pre.length st = best c ua res valid ks (pre ++ [k]).length st := by
        rw [hlen]
        have : best c ua res valid (k :: ks) pre.length st = if k ≠ [] ∧ total c ua res k = res.length ∧
            (total c ua res k > st.2.1 ∨ (total c ua res k = st.2.1 ∧ total c ua res k + total c ua valid k > st.2.2)) then
            best c ua res valid ks (pre.length + 1) (pre.length, total c ua res k, total c ua res k + total c ua valid k)
            else best c ua res valid ks (pre.length + 1) st := rfl
        rw [this, if_neg hc]
      rw [he]
      refine ih (pre ++ [k]) hcs' st ⟨?_, h.from_⟩
      intro k' hk' hne ht
      rcases List.mem_append.1 hk' with hk' | hk'
      · exact h.upper k' hk' hne ht
      · rw [List.mem_singleton] at hk'
        subst hk'
        have hle : st.2.1 ≤ res.length := by
          rcases h.from_ with h0 | ⟨k, _, _, _, h0⟩
          · rw [h0]; exact Nat.zero_le _
          · rw [h0]; exact Nat.le_refl _
        have h4 : ¬ (total c ua res k' > st.2.1 ∨ (total c ua res k' = st.2.1 ∧ total c ua res k' + total c ua valid k' > st.2.2)) :=
          fun h4 => hc ⟨hne, ht, h4⟩
        constructor
        · omega
        · omega

/-- The combination that is chosen. -/
theorem best_spec (c : Capa) (ua : Bytes) (res valid : List Track) (cs : List (List (List Bytes))) (k : List (List Bytes)) (hk : k ∈ cs) (hne : k ≠ [])
    (ht : total c ua res k = res.length) :
    total c ua res ((cs[best c ua res valid cs 0 (0, 0, 0)]?).getD []) = res.length ∧
    total c ua valid k ≤ total c ua valid ((cs[best c ua res valid cs 0 (0, 0, 0)]?).getD []) := by
  obtain ⟨st, h1, h2⟩ := best_seen c ua res valid cs cs [] rfl (0, 0, 0) ⟨by simp, Or.inl rfl⟩
  rw [show ([] : List (List (List Bytes))).length = 0 from rfl] at h1
  rw [h1]
  obtain ⟨a, b⟩ := h2.upper k hk hne ht
  rcases h2.from_ with h0 | ⟨k', h3, _, h4, h5⟩
  · rw [h0] at a b
    have hr : res = [] := List.eq_nil_of_length_eq_zero a.symm
    simp only at b
    constructor
    · rw [hr, total_nil]
      rfl
    · omega
  · rw [h3]
    refine ⟨h4, ?_⟩
    rw [h5] at b
    simp only [Option.getD_some] at b ⊢
    omega

end Verif.Choose
