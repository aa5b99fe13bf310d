import Verif.Pls.Model
import Verif.Pls.Spec

/-!
# Lemmas on playlists
-/

namespace Verif.Pls
open Verif

theorem lines_step : ∀ (l acc r : Bytes), (10 : UInt8) ∉ l → lines acc (l ++ 10 :: r) = (acc ++ l) :: lines [] r := by
  intro l
  induction l with
  | nil => intro acc r _; simp [lines]
  | cons c t ih =>
    intro acc r h
    simp only [List.mem_cons, not_or] at h
    simp only [List.cons_append, lines]
    rw [if_neg (fun e => h.1 e.symm), ih _ _ h.2]
    simp

theorem two_plain : ∀ n, n < 60 → (10 : UInt8) ∉ Spec.two n := by decide +kernel

theorem text_plain {i : Spec.Item} (h : i.Ok) : (10 : UInt8) ∉ i.text := by
  cases i with
  | entry n => exact h.2.2
  | note t => exact h.2.2
  | time hh m =>
    have h1 := two_plain hh (Nat.lt_trans h.1 (by decide))
    have h2 := two_plain m h.2
    simp only [Spec.Item.text, List.mem_append, not_or]
    exact ⟨⟨⟨by decide, h1⟩, by decide⟩, h2⟩

theorem lines_text : ∀ (l : List Spec.Item), (∀ i ∈ l, i.Ok) → lines [] (Spec.text l) = l.map Spec.Item.text := by
  intro l
  induction l with
  | nil => intro _; rfl
  | cons i t ih =>
    intro h
    have := lines_step i.text [] (Spec.text t) (text_plain (h i (by simp)))
    simp only [Spec.text, List.flatMap_cons, List.append_assoc, List.singleton_append, List.map_cons, List.nil_append] at this ⊢
    rw [this, ← ih (fun j hj => h j (by simp [hj]))]
    rfl

theorem scan_two : ∀ h, h < 24 → ∀ m, m < 60 → scanTime (Spec.two h ++ [0x3A] ++ Spec.two m) = some (h * 60 + m) := by decide +kernel

theorem read_time (w : Nat) (p : Pls) {h m : Nat} (hh : h < 24) (hm : m < 60) :
    readLine w p (Spec.Item.time h m).text = { p with start := h * 60 + m } := by
  have hd : (Spec.Item.time h m).text.drop 13 = Spec.two h ++ [0x3A] ++ Spec.two m := by
    simp only [Spec.Item.text, List.append_assoc]; rfl
  have ht : (Spec.Item.time h m).text.take 13 = tag := by
    simp only [Spec.Item.text, List.append_assoc]; rfl
  unfold readLine
  rw [if_neg (fun c => c.2 (by simp only [Spec.Item.text, List.append_assoc]; rfl)), if_pos ⟨by simp [Spec.Item.text, Spec.key, Spec.two], ht⟩, hd, scan_two h hh m hm]
  rfl

theorem read_note (w : Nat) (p : Pls) {t : Bytes} (h : (Spec.Item.note t).Ok) : readLine w p t = p := by
  unfold readLine
  rw [if_neg, if_neg (fun c => h.2.1 c.2)]
  rintro ⟨h1, h2⟩
  rcases h.1 with h | h
  · exact h1 h
  · exact h2 h

theorem read_entry (w : Nat) (p : Pls) {t : Bytes} (h : (Spec.Item.entry t).Ok) : readLine w p t = addEntry w p t := by
  unfold readLine
  rw [if_pos ⟨h.1, h.2.1⟩]

theorem at_append {pre : List (Bytes × Option Nat)} {n : Bytes} {st : Option Nat} {j s : Nat} :
    Spec.At (pre ++ [(n, st)]) j s ↔ Spec.At pre j s ∨ (j = pre.length ∧ st = some s) := by
  unfold Spec.At
  constructor
  · rintro ⟨x, hx⟩
    by_cases hj : j < pre.length
    · rw [List.getElem?_append_left hj] at hx
      exact Or.inl ⟨x, hx⟩
    · rw [List.getElem?_append_right (by omega)] at hx
      by_cases he : j - pre.length = 0
      · rw [he] at hx
        simp only [List.getElem?_cons_zero, Option.some.injEq, Prod.mk.injEq] at hx
        exact Or.inr ⟨by omega, hx.2⟩
      · rw [List.getElem?_eq_none (by simp only [List.length_singleton]; omega)] at hx
        cases hx
  · rintro (⟨x, hx⟩ | ⟨rfl, rfl⟩)
    · refine ⟨x, ?_⟩
      have hj : j < pre.length := by
        rcases Nat.lt_or_ge j pre.length with h | h
        · exact h
        · rw [List.getElem?_eq_none h] at hx; cases hx
      rw [List.getElem?_append_left hj, hx]
    · exact ⟨n, by simp⟩

theorem at_lt {l : List (Bytes × Option Nat)} {j s : Nat} (h : Spec.At l j s) : j < l.length := by
  obtain ⟨x, hx⟩ := h
  rcases Nat.lt_or_ge j l.length with h | h
  · exact h
  · rw [List.getElem?_eq_none h] at hx; cases hx

theorem at_unique {l : List (Bytes × Option Nat)} {j s s' : Nat} (h : Spec.At l j s) (h' : Spec.At l j s') : s = s' := by
  obtain ⟨x, hx⟩ := h
  obtain ⟨y, hy⟩ := h'
  rw [hx] at hy
  simp only [Option.some.injEq, Prod.mk.injEq] at hy
  exact hy.2

/-- What the limits mean. -/
structure Lim (w : Nat) (l : List (Bytes × Option Nat)) (p : Pls) : Prop where
  ents : p.entries = l.map (·.1)
  lo1 : ∀ m, p.min = some m → ∃ s, Spec.At l m s ∧ s ≤ w
  lo2 : ∀ j s, Spec.At l j s → s ≤ w → ∃ m, p.min = some m ∧ j ≤ m
  hi1 : ∀ m, p.max = some m → w < p.reloadOn ∧ Spec.At l (m + 1) p.reloadOn
  hi2 : ∀ j s, Spec.At l j s → w < s → 0 < j → ∃ m, p.max = some m ∧ m + 1 ≤ j

theorem lim_empty (w : Nat) : Lim w [] empty := by
  constructor
  · rfl
  · intro m h; cases h
  · intro j s h; have := at_lt h; simp at this
  · intro m h; cases h
  · intro j s h; have := at_lt h; simp at this

theorem lim_add {w : Nat} {pre : List (Bytes × Option Nat)} {p : Pls} {st : Option Nat} (n : Bytes) (h : Lim w pre p) (hst : p.start = st.getD 65535)
    (hs : ∀ s, st = some s → s < 1440) : Lim w (pre ++ [(n, st)]) (addEntry w p n) ∧ (addEntry w p n).start = 65535 := by
  have hlen : p.entries.length = pre.length := by rw [h.ents, List.length_map]
  cases st with
  | none =>
    have hst' : p.start = 65535 := hst
    have e : addEntry w p n = { p with entries := p.entries ++ [n] } := by unfold addEntry; rw [if_pos hst']
    rw [e]
    refine ⟨⟨?_, ?_, ?_, ?_, ?_⟩, hst'⟩
    · simp [h.ents]
    · intro m hm
      obtain ⟨s, h1, h2⟩ := h.lo1 m hm
      exact ⟨s, at_append.2 (Or.inl h1), h2⟩
    · intro j s hj hw
      rcases at_append.1 hj with hj | ⟨_, hj⟩
      · exact h.lo2 j s hj hw
      · cases hj
    · intro m hm
      exact ⟨(h.hi1 m hm).1, at_append.2 (Or.inl (h.hi1 m hm).2)⟩
    · intro j s hj hw h0
      rcases at_append.1 hj with hj | ⟨_, hj⟩
      · exact h.hi2 j s hj hw h0
      · cases hj
  | some s =>
    have hst' : p.start = s := hst
    have hlt := hs s rfl
    have e : addEntry w p n = { entries := p.entries ++ [n], start := 0xFFFF, min := if s ≤ w then some pre.length else p.min, max := if w < s ∧ p.max = none then (if pre.length = 0 then none else some (pre.length - 1)) else p.max, reloadOn := if w < s ∧ p.max = none then s else p.reloadOn } := by
      unfold addEntry
      rw [if_neg (by omega), hst', hlen]
    rw [e]
    refine ⟨⟨?_, ?_, ?_, ?_, ?_⟩, rfl⟩
    · simp [h.ents]
    · intro m hm
      simp only at hm
      by_cases c : s ≤ w
      · rw [if_pos c] at hm
        cases hm
        exact ⟨s, at_append.2 (Or.inr ⟨rfl, rfl⟩), c⟩
      · rw [if_neg c] at hm
        obtain ⟨s', h1, h2⟩ := h.lo1 m hm
        exact ⟨s', at_append.2 (Or.inl h1), h2⟩
    · intro j s' hj hw
      simp only
      rcases at_append.1 hj with hj | ⟨rfl, hk⟩
      · by_cases c : s ≤ w
        · rw [if_pos c]
          exact ⟨_, rfl, Nat.le_of_lt (at_lt hj)⟩
        · rw [if_neg c]
          exact h.lo2 j s' hj hw
      · have hj' := Option.some.inj hk
        rw [if_pos (by omega)]
        exact ⟨_, rfl, Nat.le_refl _⟩
    · intro m hm
      simp only at hm ⊢
      by_cases c : w < s ∧ p.max = none
      · rw [if_pos c] at hm ⊢
        by_cases c0 : pre.length = 0
        · rw [if_pos c0] at hm; cases hm
        · rw [if_neg c0] at hm
          cases hm
          exact ⟨c.1, at_append.2 (Or.inr ⟨by omega, rfl⟩)⟩
      · rw [if_neg c] at hm ⊢
        exact ⟨(h.hi1 m hm).1, at_append.2 (Or.inl (h.hi1 m hm).2)⟩
    · intro j s' hj hw h0
      simp only
      rcases at_append.1 hj with hj | ⟨rfl, hk⟩
      · obtain ⟨m, h1, h2⟩ := h.hi2 j s' hj hw h0
        rw [if_neg (by rw [h1]; simp)]
        exact ⟨m, h1, h2⟩
      · have hj' := Option.some.inj hk
        by_cases c : p.max = none
        · rw [if_pos ⟨by omega, c⟩, if_neg (by omega)]
          exact ⟨_, rfl, by omega⟩
        · rw [if_neg (fun x => c x.2)]
          cases hm : p.max with
          | none => exact absurd hm c
          | some m => exact ⟨m, rfl, Nat.le_of_lt (at_lt (h.hi1 m hm).2)⟩

theorem lim_items (w : Nat) : ∀ (l : List Spec.Item) (pre : List (Bytes × Option Nat)) (st : Option Nat) (p : Pls), (∀ i ∈ l, i.Ok) → Lim w pre p →
    p.start = st.getD 65535 → (∀ s, st = some s → s < 1440) → Lim w (pre ++ Spec.entries st l) ((l.map Spec.Item.text).foldl (readLine w) p) := by
  intro l
  induction l with
  | nil => intro pre st p _ h _ _; simpa [Spec.entries] using h
  | cons i t ih =>
    intro pre st p hok h hst hs
    have hi := hok i (by simp)
    have ht : ∀ j ∈ t, j.Ok := fun j hj => hok j (by simp [hj])
    cases i with
    | entry n =>
      have := lim_add n h hst hs
      simp only [List.map_cons, List.foldl_cons, Spec.entries, Spec.Item.text]
      rw [read_entry w p hi]
      have := ih (pre ++ [(n, st)]) none _ ht this.1 this.2 (by intro s hs; cases hs)
      simpa using this
    | note x =>
      simp only [List.map_cons, List.foldl_cons, Spec.entries, Spec.Item.text]
      rw [read_note w p hi]
      exact ih pre st p ht h hst hs
    | time a b =>
      have h1 : a < 24 := hi.1
      have h2 : b < 60 := hi.2
      simp only [List.map_cons, List.foldl_cons, Spec.entries]
      rw [read_time w p h1 h2]
      refine ih pre (some (a * 60 + b)) _ ht ⟨h.ents, h.lo1, h.lo2, h.hi1, h.hi2⟩ rfl ?_
      intro s hs
      cases hs
      omega

theorem lim_load (w : Nat) (l : List Spec.Item) (p : Pls) (hok : ∀ i ∈ l, i.Ok) : Lim w (Spec.entries none l) (load w (some (Spec.text l)) p) := by
  have := lim_items w l [] none empty hok (lim_empty w) rfl (by intro s hs; cases hs)
  rw [List.nil_append] at this
  unfold load
  simp only
  rw [lines_text l hok]
  exact this

/-- A clipped index is within the limits. -/
theorem clip_due {w : Nat} {l : List (Bytes × Option Nat)} {p : Pls} (h : Lim w l p) (hord : Spec.Ordered l) (h0 : ∀ s, Spec.At l 0 s → s ≤ w) {i : Nat}
    (hi : i < l.length) : Spec.Due l w (clip p i) := by
  have key : (∀ m, p.min = some m → m ≤ clip p i) ∧ (∀ m, p.max = some m → clip p i ≤ m) ∧ clip p i < l.length := by
    unfold clip
    cases hmin : p.min with
    | none =>
      cases hmax : p.max with
      | none => exact ⟨(by intro m hm; cases hm), (by intro m hm; cases hm), hi⟩
      | some b =>
        have := at_lt (h.hi1 b hmax).2
        simp only [clipMin, clipMax]
        have hx : (if b < i then b else i) ≤ b ∧ (if b < i then b else i) < l.length := by
          by_cases c : b < i
          · rw [if_pos c]; omega
          · rw [if_neg c]; omega
        exact ⟨(by intro m hm; cases hm), (by intro m hm; cases hm; exact hx.1), hx.2⟩
    | some a =>
      obtain ⟨s, ha, hs⟩ := h.lo1 a hmin
      have hal := at_lt ha
      cases hmax : p.max with
      | none =>
        simp only [clipMin, clipMax]
        refine ⟨(by intro m hm; cases hm; split <;> omega), (by intro m hm; cases hm), ?_⟩
        split <;> omega
      | some b =>
        obtain ⟨hr, hb⟩ := h.hi1 b hmax
        have hbl := at_lt hb
        have hab : a ≤ b := by
          rcases Nat.lt_or_ge b a with c | c
          · exfalso
            rcases Nat.lt_or_ge (b + 1) a with d | d
            · have := hord _ _ _ _ d hb ha; omega
            · have e : b + 1 = a := by omega
              rw [e] at hb
              have := at_unique ha hb
              omega
          · exact c
        simp only [clipMin, clipMax]
        refine ⟨(by intro m hm; cases hm; split <;> split <;> omega), (by intro m hm; cases hm; split <;> split <;> omega), ?_⟩
        split <;> split <;> omega
  refine ⟨key.2.2, ?_⟩
  intro j s hj
  constructor
  · intro hs
    obtain ⟨m, hm, hjm⟩ := h.lo2 j s hj hs
    exact Nat.le_trans hjm (key.1 m hm)
  · intro hs
    have hj0 : 0 < j := by
      rcases Nat.eq_zero_or_pos j with e | e
      · subst e; have := h0 s hj; omega
      · exact e
    obtain ⟨m, hm, hjm⟩ := h.hi2 j s hj hs hj0
    have := key.2.1 m hm
    omega

end Verif.Pls
