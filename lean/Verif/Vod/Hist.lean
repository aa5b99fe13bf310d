import Verif.Vod.Load
import Verif.Page.Props

/-!
# Histories of the pages of a recording
-/
namespace Verif.Vod
open Verif Verif.Page Spec

/-- What holds after every history. -/
structure Inv (t : Track) (gs : List (List Pack)) (s : State) : Prop where
  infos : s.slots.map (·.info) = split 0 none t.keys
  ok : ∀ sl ∈ s.slots, sl = sl.empty ∨ Full gs sl
  cnt : ∀ sl ∈ s.slots, sl.avail ≠ 0 → ∃ e ∈ s.counter, e.1 = sl.info.firstKey

theorem inv_start (t : Track) (gs : List (List Pack)) : Inv t gs (parseHeader t) := by
  unfold parseHeader
  refine ⟨?_, ?_, ?_⟩
  · dsimp only
    rw [List.map_map]
    exact (List.map_congr_left fun _ _ => rfl).trans (List.map_id _)
  · intro sl hsl
    obtain ⟨r, _, rfl⟩ := List.mem_map.mp hsl
    exact .inl rfl
  · intro sl hsl h
    obtain ⟨r, _, rfl⟩ := List.mem_map.mp hsl
    exact absurd rfl h

theorem mark_has (f page now : Nat) (c : List (Nat × Nat)) (h : ∃ e ∈ c, e.1 = f) : ∃ e ∈ mark page now c, e.1 = f := by
  unfold mark
  by_cases hf : page = f
  · exact ⟨(page, now), List.mem_cons_self, hf⟩
  · obtain ⟨e, he, hef⟩ := h
    refine ⟨e, List.mem_cons_of_mem _ (List.mem_filter.mpr ⟨he, ?_⟩), hef⟩
    rw [hef]
    exact decide_eq_true fun h => hf h.symm

theorem mark_mem {page now : Nat} {c : List (Nat × Nat)} {e : Nat × Nat} (h : e ∈ mark page now c) : e = (page, now) ∨ (e ∈ c ∧ e.1 ≠ page) := by
  unfold mark at h
  rcases List.mem_cons.mp h with h | h
  · exact .inl h
  · obtain ⟨h1, h2⟩ := List.mem_filter.mp h
    exact .inr ⟨h1, of_decide_eq_true h2⟩

theorem mem_set' {α} {l : List α} {i : Nat} {x a : α} (h : a ∈ l.set i x) : a = x ∨ ∃ j, j ≠ i ∧ l[j]? = some a := by
  obtain ⟨j, hj⟩ := List.mem_iff_getElem?.mp h
  rw [List.getElem?_set] at hj
  split at hj
  · split at hj
    · exact .inl (Option.some.inj hj).symm
    · cases hj
  · rename_i hne
    exact .inr ⟨j, fun h => hne h.symm, hj⟩

theorem infos_set {slots : List Slot} {i : Nat} {sl x : Slot} (h : slots[i]? = some sl) (hx : x.info = sl.info) :
    (slots.set i x).map (·.info) = slots.map (·.info) := by
  apply List.ext_getElem?
  intro j
  rw [List.getElem?_map, List.getElem?_map, List.getElem?_set]
  split
  · rename_i hij
    subst hij
    have := (List.getElem?_eq_some_iff.mp h).1
    rw [if_pos this, h]
    simp [hx]
  · rfl

theorem full_pos {t : Track} {gs : List (List Pack)} (hd : Describes t gs) {s : State} {i : Nat} {sl x : Slot} (hf : Facts t gs s i sl) (hx : x.info = sl.info)
    (h : Full gs x) : x.avail ≠ 0 := by
  rw [h.1, hx]
  have hl : sl.info.firstKey < gs.length := by
    have := hf.count
    have := hf.le
    rw [hd.keys] at this
    omega
  obtain ⟨p, h1, _⟩ := hd.key _ gs[sl.info.firstKey] (List.getElem?_eq_getElem hl)
  obtain ⟨n, hn⟩ : ∃ n, sl.info.keyCount = n + 1 := ⟨sl.info.keyCount - 1, by have := hf.count; omega⟩
  unfold packets
  rw [List.drop_eq_getElem_cons hl, hn, List.take_succ_cons, List.flatten_cons]
  cases hg : gs[sl.info.firstKey] with
  | nil => rw [hg] at h1; cases h1
  | cons y g =>
    rw [List.cons_append, List.map_cons, List.sum_cons]
    have := size_ge (content y)
    rw [pack_len]
    omega

/-- A request: whether the page is loaded already. -/
theorem buffered_iff {t : Track} (hm : ∀ g ∈ pagesOf [] t.keys, Small g) {s : State} (hi : s.slots.map (·.info) = split 0 none t.keys) {i : Nat} {sl : Slot}
    (h : s.slots[i]? = some sl) : isBuffered sl.info.firstKey s.slots = decide (sl.avail ≠ 0) := by
  obtain ⟨c, hc, hr⟩ := slot_rec hm hi h
  have hne := pages_ne t.keys []
  have hpos : 0 < c.length := List.length_pos_iff.mpr (hne c (List.mem_of_getElem? hc))
  have e1 : sl.info.firstKey = firstOf (pagesOf [] t.keys) i := by rw [hr]; rfl
  apply is_buffered s.slots (pagesOf [] t.keys) 0 i sl _ (by rw [hi, split_pages hm]) hne h
  · rw [e1]; omega
  · rw [e1, firstOf_succ hc]; omega

/-- A request: the page of the key is found. -/
theorem found_page {t : Track} (hm : ∀ g ∈ pagesOf [] t.keys, Small g) {s : State} (hi : s.slots.map (·.info) = split 0 none t.keys) {key : Nat}
    (hk : key < t.keys.length) : ∃ sl, s.slots[pageIdx key s.slots 0 0]? = some sl ∧ On sl key := by
  have hfl : (pagesOf [] t.keys).flatten = t.keys := by rw [pages_flatten]; rfl
  have hcs : pagesOf [] t.keys ≠ [] := by
    intro h
    rw [h] at hfl
    rw [← hfl] at hk
    simp at hk
  obtain ⟨k, k1, k2, k3, k4⟩ := page_idx key s.slots (pagesOf [] t.keys) 0 0 0 (by rw [hi, split_pages hm]) hcs (Nat.zero_le _)
  have hlen : s.slots.length = (pagesOf [] t.keys).length := by
    have := congrArg List.length hi
    rw [split_pages hm, recs_length, List.length_map] at this
    exact this
  rw [Nat.zero_add] at k1 k3
  rw [k1]
  have hks : k < s.slots.length := by omega
  refine ⟨s.slots[k], List.getElem?_eq_getElem hks, ?_⟩
  obtain ⟨c, hc, hr⟩ := slot_rec hm hi (List.getElem?_eq_getElem hks)
  have hsucc := firstOf_succ hc
  have e1 : s.slots[k].info.firstKey = firstOf (pagesOf [] t.keys) k := by rw [hr]; rfl
  have e2 : s.slots[k].info.keyCount = c.length := by rw [hr]; rfl
  unfold On
  rw [e1, e2, ← hsucc]
  refine ⟨k3, ?_⟩
  rcases k4 with k4 | k4
  · omega
  · have : firstOf (pagesOf [] t.keys) (k + 1) = t.keys.length := by
      unfold firstOf
      rw [k4, List.take_length, hfl]
    omega


/-- What a request does when the file is read as the recording. -/
theorem want_cases {t : Track} {gs : List (List Pack)} (hd : Describes t gs) {s : State} (hi : s.slots.map (·.info) = split 0 none t.keys) (key now : Nat)
    {src : Nat → List Pack} (hsrc : Faithful gs src) :
    ((bufferFrame t s key now src).1 = s ∧ t.keys.length ≤ key) ∨
    ∃ i sl, s.slots[i]? = some sl ∧ (key < t.keys.length → On sl key) ∧ (t.keys.length ≤ key → i = s.slots.length - 1) ∧ (bufferFrame t s key now src).2 = true ∧
      ((sl.avail ≠ 0 ∧ (bufferFrame t s key now src).1 = { s with counter := mark sl.info.firstKey now s.counter }) ∨
       (sl.avail = 0 ∧ ∃ x, x.info = sl.info ∧ Full gs x ∧
         (bufferFrame t s key now src).1 = { slots := s.slots.set i x, counter := mark sl.info.firstKey now s.counter })) := by
  by_cases hk : key > t.keys.length
  · left
    unfold bufferFrame
    rw [if_pos hk]
    exact ⟨rfl, by omega⟩
  · cases hs : s.slots[pageIdx key s.slots 0 0]? with
    | none =>
      left
      unfold bufferFrame
      rw [if_neg hk, hs]
      refine ⟨rfl, ?_⟩
      by_cases hk2 : key < t.keys.length
      · obtain ⟨sl, h, _⟩ := found_page hd.small hi hk2
        rw [hs] at h
        cases h
      · omega
    | some sl =>
      right
      have hf := facts hd hi hs
      have hb := buffered_iff hd.small hi hs
      obtain ⟨l1, l2, l3⟩ := load_page hd hf hsrc
      refine ⟨pageIdx key s.slots 0 0, sl, hs, ?_, ?_, ?_⟩
      · intro hk2
        obtain ⟨sl2, h, ho⟩ := found_page hd.small hi hk2
        rw [hs] at h
        cases h
        exact ho
      · intro hk2
        have hlen : s.slots.length = (pagesOf [] t.keys).length := by
          have := congrArg List.length hi
          rw [split_pages hd.small, recs_length, List.length_map] at this
          exact this
        have hsl : 0 < s.slots.length := by
          have := (List.getElem?_eq_some_iff.mp hs).1
          omega
        have hcs : pagesOf [] t.keys ≠ [] := by
          intro h
          rw [h] at hlen
          simp only [List.length_nil] at hlen
          omega
        obtain ⟨k, k1, k2, k3, k4⟩ := page_idx key s.slots (pagesOf [] t.keys) 0 0 0 (by rw [hi, split_pages hd.small]) hcs (Nat.zero_le _)
        have hfl : (pagesOf [] t.keys).flatten = t.keys := by rw [pages_flatten]; rfl
        rcases k4 with k4 | k4
        · have := firstOf_le (pagesOf [] t.keys) (k + 1)
          rw [hfl] at this
          omega
        · omega
      · unfold bufferFrame
        rw [if_neg hk, hs]
        dsimp only
        rw [hb]
        by_cases ha : sl.avail ≠ 0
        · rw [if_pos (decide_eq_true ha)]
          exact ⟨rfl, .inl ⟨ha, rfl⟩⟩
        · rw [if_neg (by simpa using ha), if_neg (by omega)]
          exact ⟨rfl, .inr ⟨by omega, _, l2, l3, rfl⟩⟩

theorem inv_want {t : Track} {gs : List (List Pack)} (hd : Describes t gs) {s : State} (h : Inv t gs s) (key now : Nat)
    {src : Nat → List Pack} (hsrc : Faithful gs src) : Inv t gs (bufferFrame t s key now src).1 := by
  rcases want_cases hd h.infos key now hsrc with ⟨e, _⟩ | ⟨i, sl, hs, _, _, _, h2⟩
  · rw [e]; exact h
  · rcases h2 with ⟨ha, e⟩ | ⟨ha, x, x1, x2, e⟩
    · rw [e]
      exact ⟨h.infos, h.ok, fun y hy hya => mark_has _ _ _ _ (h.cnt y hy hya)⟩
    · rw [e]
      refine ⟨(infos_set hs x1).trans h.infos, ?_, ?_⟩
      · intro y hy
        rcases mem_set' hy with rfl | ⟨j, _, hj⟩
        · exact .inr x2
        · exact h.ok y (List.mem_of_getElem? hj)
      · intro y hy hya
        rcases mem_set' hy with rfl | ⟨j, _, hj⟩
        · rw [x1]
          exact ⟨_, List.mem_cons_self, rfl⟩
        · exact mark_has _ _ _ _ (h.cnt y (List.mem_of_getElem? hj) hya)

theorem inv_clean {t : Track} {gs : List (List Pack)} {s : State} (h : Inv t gs s) (timeout now : Nat) : Inv t gs (removeUnused timeout s now) := by
  unfold removeUnused
  refine ⟨?_, ?_, ?_⟩
  · dsimp only
    rw [List.map_map, ← h.infos]
    apply List.map_congr_left
    intro y _
    show (if _ then y.empty else y).info = y.info
    split <;> rfl
  · intro y hy
    obtain ⟨z, hz, rfl⟩ := List.mem_map.mp hy
    split
    · exact .inl rfl
    · exact h.ok z hz
  · intro y hy hya
    obtain ⟨z, hz, rfl⟩ := List.mem_map.mp hy
    split at hya
    · exact absurd rfl hya
    · rename_i hc
      rw [if_neg hc]
      obtain ⟨e, he, hef⟩ := h.cnt z hz hya
      refine ⟨e, List.mem_filter.mpr ⟨he, ?_⟩, hef⟩
      have hn : ¬ now > e.2 + timeout := fun hgt => hc (List.any_eq_true.mpr ⟨e, he, decide_eq_true ⟨hef, hgt⟩⟩)
      rw [decide_eq_false hn]
      rfl

theorem inv_ops {t : Track} {gs : List (List Pack)} (hd : Describes t gs) (timeout : Nat) : ∀ (ops : List Op) (s : State), Inv t gs s → AllFaithful gs ops →
    Inv t gs (ops.foldl (step t timeout) s)
  | [], _, h, _ => h
  | o :: ops, s, h, hf => by
    rw [List.foldl_cons]
    apply inv_ops hd timeout ops _ _ (fun k n src hm => hf k n src (List.mem_cons_of_mem _ hm))
    cases o with
    | want key now src => exact inv_want hd h key now (hf key now src List.mem_cons_self)
    | clean now => exact inv_clean h timeout now

theorem inv_run {t : Track} {gs : List (List Pack)} (hd : Describes t gs) (timeout : Nat) {ops : List Op} (hf : AllFaithful gs ops) : Inv t gs (run t timeout ops) :=
  inv_ops hd timeout ops _ (inv_start t gs) hf

end Verif.Vod
