import Verif.Flv.Old
import Verif.Flv.StreamSpec

/-!
# Reading a stream of tags (C86)
-/
namespace Verif.Flv
open Spec

/-- The state of a loader that has read `p` of a header or a tag. -/
def At (s : Loader) (p : Bytes) : Prop :=
  s.err = false ∧ s.buf = p ∧
  ((s.done = true ∧ (p.length < 11 ∨ (isHeader p = true ∧ p.length < 13))) ∨
   (s.done = false ∧ isHeader p = false ∧ 11 ≤ p.length ∧ s.len = tagLen p ∧ p.length < s.len))

theorem at_fresh : At fresh [] := ⟨rfl, rfl, Or.inl ⟨rfl, Or.inl (by simp)⟩⟩

theorem header_facts {u : Bytes} (h : IsHeader u) : u.length = 13 ∧ (∀ n, 3 ≤ n → isHeader (u.take n) = true) ∧ checkHeader u = true := by
  cases h with
  | mk v f =>
    refine ⟨rfl, ?_, rfl⟩
    intro n hn
    unfold isHeader
    rw [List.take_take, Nat.min_eq_left hn]; rfl

theorem tag_facts {u : Bytes} (h : IsTag u) : 15 ≤ u.length ∧ (∀ n, 1 ≤ n → isHeader (u.take n) = false ∧ ((u.take n).headD 0).toNat ≤ 18) ∧
    (∀ n, 4 ≤ n → tagLen (u.take n) = u.length) := by
  cases h with
  | mk ty ht x body sz h7 hb h4 =>
    refine ⟨by simp [ui24, h7, h4]; omega, ?_, ?_⟩
    · intro n hn
      obtain ⟨m, rfl⟩ : ∃ m, n = m + 1 := ⟨n - 1, by omega⟩
      refine ⟨?_, ht⟩
      simp only [isHeader, List.take_succ_cons, List.cons.injEq, decide_eq_false_iff_not]
      rintro ⟨rfl, -⟩; exact absurd ht (by decide)
    · intro n hn
      obtain ⟨m, rfl⟩ : ∃ m, n = m + 4 := ⟨n - 4, by omega⟩
      simp only [ui24, List.cons_append, List.nil_append, List.take_succ_cons, tagLen, List.getD_cons_succ, List.getD_cons_zero, toNat_ofNat,
        List.length_cons, List.length_append, h7, h4]
      omega

theorem take_of_prefix {p d u : Bytes} (h : p ++ d <+: u) : u.take (p ++ d).length = p ++ d := (List.prefix_iff_eq_take.mp h).symm

theorem readUntil_len {c : Nat} {p d : Bytes} (h : p.length + d.length ≤ c) : readUntil c p d = (p ++ d, []) := by
  unfold readUntil
  split
  · have : d = [] := List.eq_nil_of_length_eq_zero (by omega)
    simp [this]
  · rw [List.take_of_length_le (by omega), List.drop_eq_nil_of_le (by omega)]

theorem readUntil_app {c : Nat} {p d r : Bytes} (h : p.length + d.length = c) : readUntil c p (d ++ r) = (p ++ d, r) := by
  unfold readUntil
  split
  · have : d = [] := List.eq_nil_of_length_eq_zero (by omega)
    simp [this]
  · have : c - p.length = d.length := by omega
    rw [this]; simp

theorem loads_nil (k : Nat) (s : Loader) : loads k s [] = (s, []) := by
  cases k <;> simp [loads]

theorem loads_none {k : Nat} {s s' : Loader} {d d' : Bytes} (hd : d ≠ []) (he : s.err = false) (h : loadOnce s d = (s', d', none)) :
    loads (k + 1) s d = loads k s' d' := by
  simp [loads, hd, he, h]

theorem loads_some {k : Nat} {s s' : Loader} {d d' t : Bytes} (hd : d ≠ []) (he : s.err = false) (h : loadOnce s d = (s', d', some t)) :
    loads (k + 1) s d = ((loads k s' d').1, t :: (loads k s' d').2) := by
  simp [loads, hd, he, h]

/-- The part of a header. -/
theorem header_part {u p d : Bytes} (hu : IsHeader u) (hp : p ++ d <+: u) {s : Loader} (hs : At s p) (hlt : (p ++ d).length < u.length)
    {k : Nat} (hk : d.length ≤ k) : ∃ s', loads k s d = (s', []) ∧ At s' (p ++ d) := by
  obtain ⟨hl, hh, -⟩ := header_facts hu
  obtain ⟨he, hb, hst⟩ := hs
  by_cases hd : d = []
  · subst hd; rw [loads_nil]; rw [List.append_nil]; exact ⟨s, rfl, he, hb, hst⟩
  have hd1 : 1 ≤ d.length := by cases d; exact absurd rfl hd; simp
  obtain ⟨k, rfl⟩ : ∃ j, k = j + 1 := ⟨k - 1, by omega⟩
  have htk := take_of_prefix hp
  simp only [List.length_append] at hlt
  have hdone : s.done = true := by
    rcases hst with h | ⟨-, h, h', -⟩
    · exact h.1
    · have hp' : p <+: u := (List.prefix_append p d).trans hp
      have := hh p.length (by omega)
      rw [← List.prefix_iff_eq_take.mp hp', h] at this
      cases this
  by_cases h11 : (p ++ d).length < 11
  · have e : loadOnce s d = ({ s with buf := p ++ d }, [], none) := by
      have h11' := h11
      simp only [List.length_append] at h11'
      simp only [loadOnce, hdone, if_true, hb]
      rw [readUntil_len (by omega)]
      rw [if_neg (show ¬ (p ++ d).length ≥ 11 by omega)]
    exact ⟨_, (loads_none hd he e).trans (loads_nil _ _), he, rfl, Or.inl ⟨hdone, Or.inl h11⟩⟩
  · have hhead := hh (p ++ d).length (by omega)
    rw [htk] at hhead
    have h11' := h11
    simp only [List.length_append] at h11'
    have e : loadOnce s d = ({ s with buf := p ++ d }, [], none) := by
      simp only [loadOnce, hdone, if_true, hb]
      by_cases hp11 : p.length ≥ 11
      · rw [show readUntil 11 p d = (p, d) by rw [readUntil, if_pos hp11]]
        have hp' : p <+: u := (List.prefix_append p d).trans hp
        have := hh p.length (by omega)
        rw [← List.prefix_iff_eq_take.mp hp'] at this
        simp only
        rw [if_pos hp11, if_pos this, readUntil_len (by omega)]
        simp only
        rw [if_neg (show ¬ (p ++ d).length ≥ 13 by simp only [List.length_append]; omega)]
      · have hsplit := List.take_append_drop (11 - p.length) d
        have hl1 : (d.take (11 - p.length)).length = 11 - p.length := by simp; omega
        have hr : readUntil 11 p d = (p ++ d.take (11 - p.length), d.drop (11 - p.length)) := by rw [readUntil, if_neg hp11]
        rw [hr]
        have hp' : p ++ d.take (11 - p.length) <+: u := by
          refine List.IsPrefix.trans ?_ hp
          exact List.prefix_append_right_inj p |>.mpr (List.take_prefix _ _)
        have hlen : (p ++ d.take (11 - p.length)).length = 11 := by rw [List.length_append, hl1]; omega
        have := hh 11 (by omega)
        rw [← hlen, take_of_prefix hp'] at this
        simp only
        rw [if_pos (by omega), if_pos this, readUntil_len (by rw [hlen]; simp; omega)]
        simp only [List.append_assoc, hsplit]
        rw [if_neg (show ¬ (p ++ d).length ≥ 13 by simp only [List.length_append]; omega)]
    exact ⟨_, (loads_none hd he e).trans (loads_nil _ _), he, rfl, Or.inl ⟨hdone, Or.inr ⟨hhead, by simp only [List.length_append]; omega⟩⟩⟩

/-- The end of a header. -/
theorem header_end {u p d r : Bytes} (hu : IsHeader u) (hp : p ++ d = u) (hd : d ≠ []) {s : Loader} (hs : At s p) {k : Nat}
    (hk : d.length + r.length ≤ k) : ∃ s' k', r.length ≤ k' ∧ loads k s (d ++ r) = loads k' s' r ∧ At s' [] := by
  obtain ⟨hl, hh, hc⟩ := header_facts hu
  obtain ⟨he, hb, hst⟩ := hs
  have hd1 : 1 ≤ d.length := by cases d; exact absurd rfl hd; simp
  obtain ⟨k, rfl⟩ : ∃ j, k = j + 1 := ⟨k - 1, by omega⟩
  have hlen : p.length + d.length = 13 := by rw [← List.length_append, hp, hl]
  have hdone : s.done = true := by
    rcases hst with h | ⟨-, h, h', -⟩
    · exact h.1
    · have hp' : p <+: u := ⟨d, hp⟩
      have := hh p.length (by omega)
      rw [← List.prefix_iff_eq_take.mp hp', h] at this
      cases this
  have e : loadOnce s (d ++ r) = ({ s with buf := [] }, r, none) := by
    simp only [loadOnce, hdone, if_true, hb]
    by_cases hp11 : p.length ≥ 11
    · rw [show readUntil 11 p (d ++ r) = (p, d ++ r) by rw [readUntil, if_pos hp11]]
      have hp' : p <+: u := ⟨d, hp⟩
      have := hh p.length (by omega)
      rw [← List.prefix_iff_eq_take.mp hp'] at this
      rw [if_pos hp11, if_pos this, readUntil_app hlen]
      simp only [hp]
      rw [if_pos (by omega), if_pos hc]
    · have hsplit := List.take_append_drop (11 - p.length) d
      have hl1 : (d.take (11 - p.length)).length = 11 - p.length := by simp; omega
      have hr : readUntil 11 p (d ++ r) = (p ++ d.take (11 - p.length), d.drop (11 - p.length) ++ r) := by
        rw [readUntil, if_neg hp11, List.take_append_of_le_length (by omega), List.drop_append_of_le_length (by omega)]
      rw [hr]
      have hp' : p ++ d.take (11 - p.length) <+: u := by
        rw [← hp]
        exact List.prefix_append_right_inj p |>.mpr (List.take_prefix _ _)
      have hlen' : (p ++ d.take (11 - p.length)).length = 11 := by rw [List.length_append, hl1]; omega
      have := hh 11 (by omega)
      rw [← hlen', take_of_prefix hp'] at this
      simp only
      rw [if_pos (by omega), if_pos this, readUntil_app (by rw [hlen']; simp; omega)]
      simp only [List.append_assoc, hsplit, hp]
      rw [if_pos (by omega), if_pos hc]
  refine ⟨_, k, by omega, loads_none (by simp [hd]) he e, he, rfl, Or.inl ⟨hdone, Or.inl (by simp)⟩⟩

/-- The first eleven bytes of a tag. -/
theorem tag_open {u p d r : Bytes} (hu : IsTag u) (hp : p ++ d <+: u) {s : Loader} (hb : s.buf = p)
    (hdone : s.done = true) (hlen : p.length + d.length = 11) :
    loadOnce s (d ++ r) = ({ s with buf := p ++ d, len := u.length, done := false }, r, none) := by
  obtain ⟨hl, hh, ht⟩ := tag_facts hu
  have htk := take_of_prefix hp
  have hlen' : (p ++ d).length = 11 := by rw [List.length_append, hlen]
  obtain ⟨h1, h2⟩ := hh _ (show 1 ≤ (p ++ d).length by omega)
  have h3 := ht _ (show 4 ≤ (p ++ d).length by omega)
  rw [htk] at h1 h2 h3
  simp only [loadOnce, hdone, if_true, hb]
  rw [readUntil_app hlen]
  simp only
  rw [if_pos (by omega), if_neg (by rw [h1]; simp), if_neg (by omega), h3]

/-- The part of a tag. -/
theorem tag_part {u p d : Bytes} (hu : IsTag u) (hp : p ++ d <+: u) {s : Loader} (hs : At s p) (hlt : (p ++ d).length < u.length)
    {k : Nat} (hk : d.length ≤ k) : ∃ s', loads k s d = (s', []) ∧ At s' (p ++ d) := by
  obtain ⟨hl, hh, ht⟩ := tag_facts hu
  have htk := take_of_prefix hp
  have hp' : p <+: u := (List.prefix_append p d).trans hp
  have hptk := List.prefix_iff_eq_take.mp hp'
  have hs0 := hs
  obtain ⟨he, hb, hst⟩ := hs
  by_cases hd : d = []
  · subst hd; rw [loads_nil]; rw [List.append_nil]; exact ⟨s, rfl, hs0⟩
  have hd1 : 1 ≤ d.length := by cases d; exact absurd rfl hd; simp
  have hlt' := hlt
  simp only [List.length_append] at hlt'
  obtain ⟨k, rfl⟩ : ∃ j, k = j + 1 := ⟨k - 1, by omega⟩
  have closed : ∀ (s : Loader) (p d : Bytes) (k : Nat), s.err = false → s.buf = p → s.done = false → s.len = u.length → 11 ≤ p.length → p ++ d <+: u →
      (p ++ d).length < u.length → d.length ≤ k → ∃ s', loads k s d = (s', []) ∧ At s' (p ++ d) := by
    intro s p d k he hb hdone hlen hp11 hpu hlt hk
    have htk := take_of_prefix hpu
    have hx : At { s with buf := p ++ d } (p ++ d) := by
      refine ⟨he, rfl, Or.inr ⟨hdone, ?_, ?_, ?_, ?_⟩⟩
      · have := (hh (p ++ d).length (by simp; omega)).1
        rwa [htk] at this
      · simp; omega
      · have := ht (p ++ d).length (by simp; omega)
        rw [htk] at this
        rw [this]; exact hlen
      · show (p ++ d).length < s.len
        omega
    by_cases hd : d = []
    · subst hd; rw [loads_nil]
      refine ⟨s, rfl, ?_⟩
      have : ({ s with buf := p ++ [] } : Loader) = s := by rw [List.append_nil, ← hb]
      rwa [this] at hx
    · have hd1 : 1 ≤ d.length := by cases d; exact absurd rfl hd; simp
      obtain ⟨k, rfl⟩ : ∃ j, k = j + 1 := ⟨k - 1, by omega⟩
      have e : loadOnce s d = ({ s with buf := p ++ d }, [], none) := by
        have hlt' := hlt
        simp only [List.length_append] at hlt'
        simp only [loadOnce, hdone, Bool.false_eq_true, if_false, hb]
        rw [readUntil_len (by omega)]
        simp only
        rw [if_neg (by omega)]
      exact ⟨_, by rw [loads_none hd he e, loads_nil], hx⟩
  rcases hst with ⟨hdone, hst⟩ | ⟨hdone, -, h11, hlen, -⟩
  · have hp11 : p.length < 11 := by
      rcases hst with h | ⟨h1, h2⟩
      · exact h
      · by_cases h : p.length < 11
        · exact h
        · have := (hh p.length (by omega)).1
          rw [← hptk, h1] at this; cases this
    by_cases h11 : (p ++ d).length < 11
    · have e : loadOnce s d = ({ s with buf := p ++ d }, [], none) := by
        have h11' := h11
        simp only [List.length_append] at h11'
        simp only [loadOnce, hdone, if_true, hb]
        rw [readUntil_len (by omega)]
        rw [if_neg (show ¬ (p ++ d).length ≥ 11 by omega)]
      exact ⟨_, (loads_none hd he e).trans (loads_nil _ _), he, rfl, Or.inl ⟨hdone, Or.inl h11⟩⟩
    · have h11' := h11
      simp only [List.length_append] at h11'
      have hsplit := List.take_append_drop (11 - p.length) d
      have hl1 : (d.take (11 - p.length)).length = 11 - p.length := by simp; omega
      generalize d.take (11 - p.length) = a at *
      generalize hb' : d.drop (11 - p.length) = b at *
      subst hsplit
      have e := tag_open (r := b) hu ((List.prefix_append (p ++ a) b).trans (by rwa [List.append_assoc])) hb hdone (by omega)
      rw [loads_none hd he e]
      have := closed { s with buf := p ++ a, len := u.length, done := false } (p ++ a) b k he rfl rfl rfl (by simp; omega)
        (by rwa [List.append_assoc]) (by rwa [List.append_assoc]) (by simp only [List.length_append] at hk; omega)
      rwa [List.append_assoc] at this
  · refine closed s p d (k + 1) he hb hdone ?_ h11 hp hlt hk
    rw [hlen]
    have := ht p.length (by omega)
    rwa [← hptk] at this

/-- The end of a tag. -/
theorem tag_end {u p d r : Bytes} (hu : IsTag u) (hp : p ++ d = u) (hd : d ≠ []) {s : Loader} (hs : At s p) {k : Nat}
    (hk : d.length + r.length ≤ k) :
    ∃ s' k', r.length ≤ k' ∧ loads k s (d ++ r) = ((loads k' s' r).1, u :: (loads k' s' r).2) ∧ At s' [] := by
  obtain ⟨hl, hh, ht⟩ := tag_facts hu
  have hp' : p <+: u := ⟨d, hp⟩
  have hptk := List.prefix_iff_eq_take.mp hp'
  obtain ⟨he, hb, hst⟩ := hs
  have hlen : p.length + d.length = u.length := by rw [← List.length_append, hp]
  have hd1 : 1 ≤ d.length := by cases d; exact absurd rfl hd; simp
  have closed : ∀ (s : Loader) (p d : Bytes) (k : Nat), s.err = false → s.buf = p → s.done = false → s.len = u.length → p ++ d = u → d ≠ [] →
      d.length + r.length ≤ k → ∃ s' k', r.length ≤ k' ∧ loads k s (d ++ r) = ((loads k' s' r).1, u :: (loads k' s' r).2) ∧ At s' [] := by
    intro s p d k he hb hdone hlen hpu hd hk
    have hd1 : 1 ≤ d.length := by cases d; exact absurd rfl hd; simp
    have hl' : p.length + d.length = s.len := by rw [← List.length_append, hpu, hlen]
    obtain ⟨k, rfl⟩ : ∃ j, k = j + 1 := ⟨k - 1, by omega⟩
    have e : loadOnce s (d ++ r) = ({ s with done := true, buf := [] }, r, some u) := by
      simp only [loadOnce, hdone, Bool.false_eq_true, if_false, hb]
      rw [readUntil_app hl']
      simp only [hpu]
      rw [if_pos (by omega)]
    exact ⟨_, k, by omega, loads_some (by simp [hd]) he e, he, rfl, Or.inl ⟨rfl, Or.inl (by simp)⟩⟩
  rcases hst with ⟨hdone, hst⟩ | ⟨hdone, -, h11, hlen', -⟩
  · have hp11 : p.length < 11 := by
      rcases hst with h | ⟨h1, h2⟩
      · exact h
      · by_cases h : p.length < 11
        · exact h
        · have := (hh p.length (by omega)).1
          rw [← hptk, h1] at this; cases this
    have hsplit := List.take_append_drop (11 - p.length) d
    have hl1 : (d.take (11 - p.length)).length = 11 - p.length := by simp; omega
    generalize d.take (11 - p.length) = a at *
    generalize hb' : d.drop (11 - p.length) = b at *
    subst hsplit
    obtain ⟨k, rfl⟩ : ∃ j, k = j + 1 := ⟨k - 1, by omega⟩
    have e := tag_open (p := p) (d := a) (r := b ++ r) hu (by rw [← hp, ← List.append_assoc]; exact List.prefix_append (p ++ a) b) hb hdone (by omega)
    rw [List.append_assoc, loads_none (by simp only [← List.append_assoc, ne_eq, List.append_eq_nil_iff, not_and]; exact fun h => absurd (by simpa using h) hd) he e]
    simp only [List.length_append] at hk hlen
    exact closed { s with buf := p ++ a, len := u.length, done := false } (p ++ a) b k he rfl rfl rfl (by rw [List.append_assoc]; exact hp)
      (by intro h; subst h; simp at *; omega) (by omega)
  · refine closed s p d k he hb hdone ?_ hp hd hk
    rw [hlen']
    have := ht p.length (by omega)
    rwa [← hptk] at this

/-- What comes next is longer than what was read. -/
def Fits (p : Bytes) : List Bytes → Prop
  | [] => p = []
  | u :: _ => p.length < u.length

theorem file_pos {parts tags : List Bytes} (h : File parts tags) : Fits [] parts := by
  cases h with
  | nil => rfl
  | header hh _ => simp [Fits, (header_facts hh).1]
  | tag ht _ => have := (tag_facts ht).1; simp only [Fits, List.length_nil]; omega

/-- Any data that is a part of a file. -/
theorem loads_file {parts tags : List Bytes} (hf : File parts tags) : ∀ (s : Loader) (p d r : Bytes) (k : Nat), At s p → Fits p parts →
    p ++ d ++ r = parts.flatten → d.length ≤ k →
    ∃ parts1 parts2 tags1 tags2 p' s', parts = parts1 ++ parts2 ∧ tags = tags1 ++ tags2 ∧ File parts1 tags1 ∧ File parts2 tags2 ∧ p ++ d = parts1.flatten ++ p' ∧
      Fits p' parts2 ∧ loads k s d = (s', tags1) ∧ At s' p' := by
  induction hf with
  | nil =>
    intro s p d r k hs hp he hk
    simp only [List.flatten_nil, List.append_eq_nil_iff] at he
    obtain ⟨⟨rfl, rfl⟩, -⟩ := he
    exact ⟨[], [], [], [], [], s, rfl, rfl, .nil, .nil, rfl, rfl, loads_nil _ _, hs⟩
  | @header u parts tags hu hr ih =>
    intro s p d r k hs hp he hk
    rw [List.flatten_cons] at he
    by_cases hl : (p ++ d).length < u.length
    · have hpre : p ++ d <+: u := by
        have h1 : p ++ d <+: u ++ parts.flatten := ⟨r, he⟩
        have h2 : u <+: u ++ parts.flatten := List.prefix_append _ _
        exact List.prefix_of_prefix_length_le h1 h2 (by omega)
      obtain ⟨s', h1, h2⟩ := header_part hu hpre hs hl hk
      exact ⟨[], u :: parts, [], tags, p ++ d, s', rfl, rfl, .nil, .header hu hr, rfl, hl, h1, h2⟩
    · have hpre : u <+: p ++ d := by
        have h1 : p ++ d <+: u ++ parts.flatten := ⟨r, he⟩
        have h2 : u <+: u ++ parts.flatten := List.prefix_append _ _
        exact List.prefix_of_prefix_length_le h2 h1 (by omega)
      obtain ⟨d2, hd2⟩ := hpre
      have hpl : p.length < u.length := hp
      obtain ⟨d1, hd1⟩ : p <+: u := List.prefix_of_prefix_length_le ⟨d, rfl⟩ ⟨d2, hd2⟩ (by omega)
      have hdd : d = d1 ++ d2 := by
        rw [← hd1, List.append_assoc] at hd2
        exact (List.append_cancel_left hd2).symm
      have hd1n : d1 ≠ [] := by rintro rfl; rw [← hd1] at hpl; simp at hpl
      subst hdd
      rw [← hd2, List.append_assoc] at he
      have he' := List.append_cancel_left he
      obtain ⟨s1, k', hk', e1, hs1⟩ := header_end (r := d2) hu hd1 hd1n hs (by simpa using hk)
      obtain ⟨p1, p2, t1, t2, p', s', h1, h2, h3, h4, h5, h6, h7, h8⟩ := ih s1 [] d2 r k' hs1 (file_pos hr) (by simpa using he') hk'
      refine ⟨u :: p1, p2, t1, t2, p', s', by rw [h1]; rfl, h2, .header hu h3, h4, ?_, h6, ?_, h8⟩
      · rw [← List.append_assoc, hd1, List.flatten_cons, List.append_assoc, ← h5]; rfl
      · rw [e1, h7]
  | @tag u parts tags hu hr ih =>
    intro s p d r k hs hp he hk
    rw [List.flatten_cons] at he
    by_cases hl : (p ++ d).length < u.length
    · have hpre : p ++ d <+: u := by
        have h1 : p ++ d <+: u ++ parts.flatten := ⟨r, he⟩
        have h2 : u <+: u ++ parts.flatten := List.prefix_append _ _
        exact List.prefix_of_prefix_length_le h1 h2 (by omega)
      obtain ⟨s', h1, h2⟩ := tag_part hu hpre hs hl hk
      exact ⟨[], u :: parts, [], u :: tags, p ++ d, s', rfl, rfl, .nil, .tag hu hr, rfl, hl, h1, h2⟩
    · have hpre : u <+: p ++ d := by
        have h1 : p ++ d <+: u ++ parts.flatten := ⟨r, he⟩
        have h2 : u <+: u ++ parts.flatten := List.prefix_append _ _
        exact List.prefix_of_prefix_length_le h2 h1 (by omega)
      obtain ⟨d2, hd2⟩ := hpre
      have hpl : p.length < u.length := hp
      obtain ⟨d1, hd1⟩ : p <+: u := List.prefix_of_prefix_length_le ⟨d, rfl⟩ ⟨d2, hd2⟩ (by omega)
      have hdd : d = d1 ++ d2 := by
        rw [← hd1, List.append_assoc] at hd2
        exact (List.append_cancel_left hd2).symm
      have hd1n : d1 ≠ [] := by rintro rfl; rw [← hd1] at hpl; simp at hpl
      subst hdd
      rw [← hd2, List.append_assoc] at he
      have he' := List.append_cancel_left he
      obtain ⟨s1, k', hk', e1, hs1⟩ := tag_end (r := d2) hu hd1 hd1n hs (by simpa using hk)
      obtain ⟨p1, p2, t1, t2, p', s', h1, h2, h3, h4, h5, h6, h7, h8⟩ := ih s1 [] d2 r k' hs1 (file_pos hr) (by simpa using he') hk'
      refine ⟨u :: p1, p2, u :: t1, t2, p', s', by rw [h1]; rfl, by rw [h2]; rfl, .tag hu h3, h4, ?_, h6, ?_, h8⟩
      · rw [← List.append_assoc, hd1, List.flatten_cons, List.append_assoc, ← h5]; rfl
      · rw [e1, h7]

theorem file_append {p1 t1 p2 t2 : List Bytes} (h1 : File p1 t1) (h2 : File p2 t2) : File (p1 ++ p2) (t1 ++ t2) := by
  induction h1 with
  | nil => exact h2
  | header hh _ ih => exact .header hh ih
  | tag ht _ ih => exact .tag ht ih

theorem feedAll_file (pieces : List Bytes) : ∀ {parts tags : List Bytes}, File parts tags → ∀ (s : Loader) (p r : Bytes), At s p → Fits p parts →
    p ++ pieces.flatten ++ r = parts.flatten →
    ∃ parts1 parts2 tags1 tags2 p' s', parts = parts1 ++ parts2 ∧ tags = tags1 ++ tags2 ∧ File parts1 tags1 ∧ p ++ pieces.flatten = parts1.flatten ++ p' ∧
      Fits p' parts2 ∧ feedAll s pieces = (s', tags1) ∧ At s' p' := by
  induction pieces with
  | nil =>
    intro parts tags hf s p r hs hp he
    exact ⟨[], parts, [], tags, p, s, rfl, rfl, .nil, by simp, hp, rfl, hs⟩
  | cons d ds ih =>
    intro parts tags hf s p r hs hp he
    rw [List.flatten_cons] at he
    obtain ⟨p1, p2, t1, t2, p', s', rfl, rfl, h3, h4, h5, h6, h7, h8⟩ := loads_file hf s p d (ds.flatten ++ r) d.length hs hp
      (by rw [← he]; simp) (by omega)
    obtain ⟨q1, q2, u1, u2, q', s2, rfl, rfl, g3, g5, g6, g7, g8⟩ := ih h4 s' p' r h8 h6 (by
      have : p1.flatten ++ (p' ++ ds.flatten ++ r) = p1.flatten ++ p2.flatten := by
        rw [← List.flatten_append, ← he]
        simp only [← List.append_assoc]
        rw [← h5]
      exact List.append_cancel_left this)
    refine ⟨p1 ++ q1, q2, t1 ++ u1, u2, q', s2, by simp, by simp, file_append h3 g3, ?_, g6, ?_, g8⟩
    · rw [List.flatten_cons, ← List.append_assoc, h5, List.append_assoc, g5]; simp
    · simp only [feedAll, feed, h7, g7]

theorem not_both {u : Bytes} (h1 : IsHeader u) (h2 : IsTag u) : False := by
  have a := (header_facts h1).2.1 3 (by omega)
  have b := ((tag_facts h2).2.1 3 (by omega)).1
  rw [a] at b; cases b

theorem file_unique {a b : List Bytes} (h1 : File a b) : ∀ {c : List Bytes}, File a c → b = c := by
  induction h1 with
  | nil => intro c h2; cases h2; rfl
  | header hh _ ih =>
    intro c h2
    cases h2 with
    | header _ r => exact ih r
    | tag ht r => exact (not_both hh ht).elim
  | tag ht _ ih =>
    intro c h2
    cases h2 with
    | header hh r => exact (not_both hh ht).elim
    | tag _ r => rw [ih r]

/-- C86: whatever pieces a file arrives in, exactly its tags are read, in order, and there is no error. -/
theorem C86_pieces {parts tags pieces : List Bytes} (hf : File parts tags) (hp : pieces.flatten = parts.flatten) :
    (feedAll fresh pieces).2 = tags ∧ (feedAll fresh pieces).1.err = false := by
  obtain ⟨p1, p2, t1, t2, p', s', rfl, rfl, h3, h4, h5, h6, h7⟩ := feedAll_file pieces hf fresh [] [] at_fresh (file_pos hf) (by simpa using hp)
  have : p2.flatten = p' := by
    have := h4
    rw [List.nil_append, hp, List.flatten_append] at this
    exact List.append_cancel_left this
  cases p2 with
  | nil =>
    rw [h6]
    refine ⟨?_, h7.1⟩
    rw [List.append_nil] at hf
    exact (file_unique hf h3).symm
  | cons u us =>
    exfalso
    simp only [Fits] at h5
    rw [← this] at h5
    simp at h5; omega

/-- C86: while a file arrives, the tags that have arrived completely have been read, and there is no error. -/
theorem C86_prefix {parts tags pieces : List Bytes} {rest : Bytes} (hf : File parts tags) (hp : pieces.flatten ++ rest = parts.flatten) :
    ∃ parts1 parts2 part, parts = parts1 ++ parts2 ∧ pieces.flatten = parts1.flatten ++ part ∧ (∀ u ∈ parts2.head?, part.length < u.length) ∧
      File parts1 (feedAll fresh pieces).2 ∧ (feedAll fresh pieces).1.err = false := by
  obtain ⟨p1, p2, t1, t2, p', s', rfl, rfl, h3, h4, h5, h6, h7⟩ := feedAll_file pieces hf fresh [] rest at_fresh (file_pos hf) (by simpa using hp)
  refine ⟨p1, p2, p', rfl, h4, ?_, by rw [h6]; exact h3, by rw [h6]; exact h7.1⟩
  intro u hu
  cases p2 with
  | nil => cases hu
  | cons v vs => simp only [List.head?_cons, Option.mem_def, Option.some.injEq] at hu; subst hu; exact h5

/-! ### Recordings of the server -/

/-- What is written to a file: frames of video and audio. -/
inductive Item
  | video (codec : String) (time : Nat) (off : Int) (key disp : Bool) (data : Bytes)
  | audio (codec : String) (time rate size channels : Nat) (data : Bytes)

/-- output_flv.cpp 80-91, flv_tag.cpp 550-649: the tag that is written. -/
def Item.tag : Item → Bytes
  | .video codec time off key disp data => tagOf 9 time [0, 0, 0] (loadVideo codec off key disp data)
  | .audio codec time rate size ch data =>
    tagOf 8 time [0, 0, 0] (loadAudio codec rate size ch (if codec = "PCM" ∧ size = 16 then swap16 data else data))

/-- input_flv.cpp 155-173: what is read back from a tag, for a track with this sample size. -/
def readBack (size : Nat) (t : Bytes) : Option Got :=
  (receive t).map fun
    | .frame f => .frame (if f.codec = "PCM" ∧ size = 16 then { f with data := swap16 f.data } else f)
    | g => g

/-- The sample size of the track. -/
def Item.size : Item → Nat
  | .video .. => 0
  | .audio _ _ _ s _ _ => s

/-- The frame. -/
def Item.frame : Item → Frame
  | .video codec time off key _ data => ⟨1, codec, time, off, key, data⟩
  | .audio codec time _ _ _ data => ⟨2, codec, time, 0, false, data⟩

/-- Frames that fit: codecs of FLV, times below 2^32, sizes below 2^24. Not here: key frames marked as disposable, and audio whose rate, sample
size and channels are mistaken for something else (`C85_audio_offset_fails`). -/
def Item.Good : Item → Prop
  | .video codec time off key disp data => data ≠ [] ∧ data.length + 5 < 2 ^ 24 ∧ time < 2 ^ 32 ∧ (disp = true → key = false) ∧
    ((codec = "H264" ∧ Fits24 off) ∨ (off = 0 ∧ ∃ n, VideoNumber codec n))
  | .audio codec time rate size ch data => data ≠ [] ∧ data.length + 2 < 2 ^ 24 ∧ time < 2 ^ 32 ∧ audioBits rate size ch ≠ 7 ∧ audioBits rate size ch ≠ 6 ∧ audioBits rate size ch ≠ 1 ∧
    (codec = "AAC" ∨ codec = "MP3" ∨ codec = "ADPCM" ∨ codec = "PCM" ∨ codec = "Nellymoser" ∨ codec = "ALAW" ∨ codec = "ULAW" ∨ codec = "Speex")

theorem isTag_of (ty time : Nat) {sid body : Bytes} (hty : ty ≤ 18) (hs : sid.length = 3) (hb : body.length < 2 ^ 24) :
    IsTag (tagOf ty time sid body) := by
  have h := IsTag.mk (UInt8.ofNat ty) (by rw [toNat_ofNat]; omega) (timeBytes time ++ sid) body (be32 (body.length + 11)) (by simp [timeBytes, hs]) hb rfl
  have : ui24 body.length = be24 body.length := rfl
  rw [this] at h
  simpa [tagOf] using h

theorem swap_length : ∀ l : Bytes, (swap16 l).length = l.length
  | [] => rfl
  | [_] => rfl
  | a :: b :: l => by simp [swap16, swap_length l]

theorem item_tag {i : Item} (h : i.Good) : IsTag i.tag := by
  cases i with
  | video codec time off key disp data =>
    refine isTag_of _ _ (by omega) rfl ?_
    have := h.2.1
    unfold loadVideo
    split <;> simp [off24] <;> omega
  | audio codec time rate size ch data =>
    refine isTag_of _ _ (by omega) rfl ?_
    have := h.2.1
    unfold loadAudio
    split <;> split <;> simp [swap_length] <;> omega

theorem item_read {i : Item} (h : i.Good) : readBack i.size i.tag = some (.frame i.frame) := by
  cases i with
  | video codec time off key disp data =>
    obtain ⟨h1, h2, h3, h4, h5⟩ := h
    obtain ⟨ft, hft, hb, hk⟩ := frame_key key disp
    have hkk : decide (ft = 1) = key := by rw [hk]; cases key <;> cases disp <;> simp_all
    have e : receive (tagOf 9 time [0, 0, 0] (loadVideo codec off key disp data)) = some (.frame ⟨1, codec, time, off, key, data⟩) := by
      rcases h5 with ⟨rfl, hf⟩ | ⟨rfl, n, hn⟩
      · have e : loadVideo "H264" off key disp data = Spec.avc ft 1 off data := by
          simp only [loadVideo, if_true, Spec.avc, hb, off24_si24, videoNumber]
          rw [Nat.add_comm]; rfl
        rw [e, C85_avc rfl h3 hft hf h1, hkk]
      · have e : loadVideo codec 0 key disp data = Spec.oldVideo ft n data := by
          have : videoNumber codec = n ∧ codec ≠ "H264" := by cases hn <;> decide
          rw [loadVideo, if_neg this.2, this.1, hb, Nat.add_comm]; rfl
        rw [e, C85_old_video rfl h3 hft hn h1, hkk]
    show Option.map _ (receive (tagOf 9 time [0, 0, 0] (loadVideo codec off key disp data))) = _
    rw [e]
    exact congrArg (fun f => some (Got.frame f)) (if_neg (fun h => absurd h.2 (by show ¬ (0 : Nat) = 16; decide)))
  | audio codec time rate size ch data =>
    obtain ⟨h1, h2, h3, b7, b6, b1, h5⟩ := h
    have hs := C85_sent_audio_partial (sid := [0, 0, 0]) (multi := none) (codec := codec) (rate := rate) (size := size) (ch := ch) rfl h3 (by simp) h1
      (by rcases h5 with h | h | h | h | h | h | h | h <;> simp [h]) ⟨b7, b6, b1⟩
    have hno : ¬ (codec = "opus" ∨ codec = "AC3" ∨ codec = "FLAC") := by
      rcases h5 with h | h | h | h | h | h | h | h <;> subst h <;> decide
    have e : sendAudio codec none rate size ch data = loadAudio codec rate size ch (if codec = "PCM" ∧ size = 16 then swap16 data else data) := by
      simp only [sendAudio, if_neg hno]; rfl
    rw [e] at hs
    show Option.map _ (receive (tagOf 8 time [0, 0, 0] (loadAudio codec rate size ch (if codec = "PCM" ∧ size = 16 then swap16 data else data)))) = _
    rw [hs]
    show some (Got.frame (if codec = "PCM" ∧ size = 16 then _ else _)) = some (Got.frame ⟨2, codec, time, 0, false, data⟩)
    by_cases hp : codec = "PCM" ∧ size = 16
    · rw [if_pos hp, if_pos hp, swap_swap]; rfl
    · rw [if_neg hp, if_neg hp]; rfl

/-- C86: what the server writes to a file it reads back, in any pieces. Missing: see `Item.Good`. -/
theorem C86_partial {items : List Item} (hg : ∀ i ∈ items, i.Good) {pieces : List Bytes} (hp : pieces.flatten = header ++ (items.map Item.tag).flatten) :
    (feedAll fresh pieces).2.length = items.length ∧
    List.zipWith (fun (i : Item) t => readBack i.size t) items (feedAll fresh pieces).2 = items.map fun i => some (.frame i.frame) := by
  have hf : File (header :: items.map Item.tag) (items.map Item.tag) := by
    refine .header (.mk 1 5) ?_
    clear hp
    induction items with
    | nil => exact .nil
    | cons i l ih => exact .tag (item_tag (hg i List.mem_cons_self)) (ih fun j hj => hg j (List.mem_cons_of_mem _ hj))
  rw [(C86_pieces hf (by rw [hp]; rfl)).1]
  refine ⟨by simp, ?_⟩
  clear hf hp
  induction items with
  | nil => rfl
  | cons i l ih =>
    simp only [List.map_cons, List.zipWith_cons_cons, item_read (hg i List.mem_cons_self), ih fun j hj => hg j (List.mem_cons_of_mem _ hj)]

theorem big_tag (n : Nat) (hn : n = 2 ^ 24) : (feedAll fresh [tagOf 9 0 [0, 0, 0] (List.replicate n 0)]).2 ≠ [tagOf 9 0 [0, 0, 0] (List.replicate n 0)] := by
  intro h
  obtain ⟨X, hX⟩ : ∃ X, tagOf 9 0 [0, 0, 0] (List.replicate n 0) = [9, 0, 0, 0, 0, 0, 0, 0, 0, 0, 0, 0, 0, 0, 0] ++ X := by
    obtain ⟨m, rfl⟩ : ∃ m, n = 4 + m := ⟨n - 4, by omega⟩
    refine ⟨List.replicate m 0 ++ be32 (4 + m + 11), ?_⟩
    have e0 : be24 (4 + m) = [0, 0, 0] := by rw [hn]; decide +kernel
    unfold tagOf
    rw [List.length_replicate, ← List.replicate_append_replicate, e0, show timeBytes 0 = [0, 0, 0, 0] by decide +kernel]
    rfl
  have hl : (tagOf 9 0 [0, 0, 0] (List.replicate n 0)).length = n + 15 := by
    simp only [tagOf, be24, timeBytes, be32, List.length_cons, List.length_append, List.length_nil, List.length_replicate]; omega
  have hX' : [(9 : UInt8), 0, 0, 0, 0, 0, 0, 0, 0, 0, 0, 0, 0, 0, 0].length = 15 := rfl
  generalize tagOf 9 0 [0, 0, 0] (List.replicate n 0) = t at *
  have ht : IsTag [9, 0, 0, 0, 0, 0, 0, 0, 0, 0, 0, 0, 0, 0, 0] := IsTag.mk 9 (by decide) [0, 0, 0, 0, 0, 0, 0] [] [0, 0, 0, 0] rfl (by simp) rfl
  obtain ⟨s', k', -, e, -⟩ := tag_end (p := []) (r := X) (k := t.length) ht rfl (by simp) at_fresh (by rw [hX, List.length_append]; omega)
  rw [← hX] at e
  have h2 : (feedAll fresh [t]).2 = (loads t.length fresh t).2 := by simp [feedAll, feed]
  rw [h2, e] at h
  have := (List.cons.inj h).1
  rw [← this] at hl
  simp only [hX'] at hl
  omega

/-- C86 fails: a frame of 16 MiB or more is written with a wrong length, and read as something else. -/
theorem C86_big_fails : ∃ body : Bytes, body.length = 2 ^ 24 ∧ (feedAll fresh [tagOf 9 0 [0, 0, 0] body]).2 ≠ [tagOf 9 0 [0, 0, 0] body] := by
  obtain ⟨n, hn⟩ : ∃ n : Nat, n = 2 ^ 24 := ⟨_, rfl⟩
  exact ⟨List.replicate n 0, by rw [List.length_replicate, hn], big_tag n hn⟩

/-! ### Seeking -/

/-- C86: seeking from a tag goes to the next tag of the type, over all others. -/
theorem C86_seek {before after t : Bytes} {skipped : List Bytes} {ty : UInt8} (hty : ty = 8 ∨ ty = 9 ∨ ty = 18)
    (hsk : ∀ u ∈ skipped, IsTag u ∧ ∃ x, u.head? = some x ∧ x ≠ ty ∧ (x = 8 ∨ x = 9 ∨ x = 18)) (ht : IsTag t) (hth : t.head? = some ty) :
    seekToTagType (before ++ skipped.flatten ++ t ++ after) ty before.length = (before.length + skipped.flatten.length, true) := by
  have first : ∀ (b u a : Bytes), IsTag u → ∃ x y z w, u.head? = some x ∧ (b ++ u ++ a)[b.length]? = some x ∧ (b ++ u ++ a)[b.length + 1]? = some y ∧
      (b ++ u ++ a)[b.length + 2]? = some z ∧ (b ++ u ++ a)[b.length + 3]? = some w ∧ y.toNat * 65536 + z.toNat * 256 + w.toNat + 15 = u.length := by
    intro b u a hu
    cases hu with
    | mk x hx times body size h7 hb h4 =>
      refine ⟨x, UInt8.ofNat (body.length / 65536), UInt8.ofNat (body.length / 256), UInt8.ofNat body.length, rfl, ?_, ?_, ?_, ?_, ?_⟩
      · simp
      · simp [ui24, List.getElem?_append_right]
      · simp [ui24, List.getElem?_append_right]
      · simp [ui24, List.getElem?_append_right]
      · simp only [toNat_ofNat, ui24, List.length_cons, List.length_append, List.length_nil, h7, h4]; omega
  have step : ∀ (f : Bytes) (ty : UInt8) (pos : Nat) (x y z w : UInt8), f[pos]? = some x → f[pos + 1]? = some y → f[pos + 2]? = some z →
      f[pos + 3]? = some w → seekToTagType f ty pos = if x = 0x09 ∨ x = 0x08 ∨ x = 0x12 then
        if ty = x then (pos, true) else seekToTagType f ty (pos + 4 + (y.toNat * 65536 + z.toNat * 256 + w.toNat + 11)) else (pos, false) := by
    intro f ty pos x y z w h1 h2 h3 h4
    rw [seekToTagType]
    split
    · rename_i a b c e g1 g2 g3 g4
      rw [h1] at g1; rw [h2] at g2; rw [h3] at g3; rw [h4] at g4
      cases g1; cases g2; cases g3; cases g4; rfl
    · rename_i hn; exact absurd h4 (hn x y z w h1 h2 h3)
  induction skipped generalizing before with
  | nil =>
    simp only [List.flatten_nil, List.append_nil, List.length_nil, Nat.add_zero]
    obtain ⟨x, y, z, w, h0, h1, h2, h3, h4, -⟩ := first before t after ht
    rw [hth] at h0
    cases h0
    rw [step _ _ _ _ _ _ _ h1 h2 h3 h4, if_pos (by rcases hty with h | h | h <;> subst h <;> decide), if_pos rfl]
  | cons u us ih =>
    obtain ⟨hu, x', hx', hne, hx8⟩ := hsk u List.mem_cons_self
    have e : before ++ (u :: us).flatten ++ t ++ after = before ++ u ++ (us.flatten ++ t ++ after) := by simp
    obtain ⟨x, y, z, w, h0, h1, h2, h3, h4, h5⟩ := first before u (us.flatten ++ t ++ after) hu
    rw [hx'] at h0
    cases h0
    have := ih (before := before ++ u) (fun v hv => hsk v (List.mem_cons_of_mem _ hv))
    rw [e, step _ _ _ _ _ _ _ h1 h2 h3 h4, if_pos (by rcases hx8 with h | h | h <;> subst h <;> decide), if_neg (fun h => hne h.symm)]
    rw [show before.length + 4 + (y.toNat * 65536 + z.toNat * 256 + w.toNat + 11) = (before ++ u).length by rw [List.length_append]; omega]
    rw [show before ++ u ++ us.flatten ++ t ++ after = before ++ u ++ (us.flatten ++ t ++ after) by simp] at this
    rw [this]
    simp [Nat.add_assoc]

/-! ### Not empty -/

example : (feedAll fresh [[70, 76], [86, 1, 5, 0, 0, 0, 9, 0, 0, 0, 0, 9, 0, 0, 1], [0, 0, 0, 0, 0, 0, 0, 7, 0, 0, 0], [12]]).2 =
    [[9, 0, 0, 1, 0, 0, 0, 0, 0, 0, 0, 7, 0, 0, 0, 12]] := by
  refine (C86_pieces (parts := [header, [9, 0, 0, 1, 0, 0, 0, 0, 0, 0, 0, 7, 0, 0, 0, 12]]) (.header (.mk 1 5) (.tag ?_ .nil)) rfl).1
  exact IsTag.mk 9 (by decide) [0, 0, 0, 0, 0, 0, 0] [7] [0, 0, 0, 12] rfl (by simp) rfl

example : ∀ i ∈ [Item.video "H264" 40 (-80) true false [1, 2], .audio "PCM" 40 44100 16 2 [1, 2, 3, 4]], i.Good := by
  intro i hi
  simp only [List.mem_cons, List.not_mem_nil, or_false] at hi
  rcases hi with rfl | rfl
  · exact ⟨by simp, by simp, by omega, by simp, Or.inl ⟨rfl, by constructor <;> decide⟩⟩
  · exact ⟨by simp, by simp, by omega, by decide, by decide, by decide, by simp⟩

end Verif.Flv
