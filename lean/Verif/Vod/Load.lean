import Verif.Vod.Lemmas

/-!
# Loading a page of a recording
-/
namespace Verif.Vod
open Verif Verif.Page Spec

theorem sum_le : ∀ (a b : List Nat), a.length = b.length → (∀ (i x y : Nat), a[i]? = some x → b[i]? = some y → x ≤ y) → a.sum ≤ b.sum
  | [], [], _, _ => Nat.le_refl _
  | [], _ :: _, h, _ => by cases h
  | _ :: _, [], h, _ => by cases h
  | x :: a, y :: b, h, hi => by
    have h1 := hi 0 x y rfl rfl
    have h2 := sum_le a b (by simpa using h) (fun i u v hu hv => hi (i + 1) u v (by simpa using hu) (by simpa using hv))
    simp only [List.sum_cons]
    omega

theorem sum_flatten (f : Pack → Nat) (l : List (List Pack)) : (l.flatten.map f).sum = (l.map fun g => (g.map f).sum).sum := by
  induction l with
  | nil => rfl
  | cons g l ih => rw [List.flatten_cons, List.map_append, List.sum_append, ih, List.map_cons, List.sum_cons]

theorem length_flatten (l : List (List Pack)) : l.flatten.length = (l.map List.length).sum := by
  induction l with
  | nil => rfl
  | cons g l ih => simp

theorem key_get {t : Track} {i : Nat} {k : Index.Key} (h : t.keys[i]? = some k) : t.key i = k := by
  unfold Track.key
  rw [List.getD_eq_getElem?_getD, h]
  rfl

theorem parts_eq {t : Track} {gs : List (List Pack)} (hd : Describes t gs) : t.keys.map (·.parts) = gs.map List.length := by
  apply List.ext_getElem?
  intro i
  rw [List.getElem?_map, List.getElem?_map]
  cases hk : t.keys[i]? with
  | none =>
    rw [List.getElem?_eq_none_iff] at hk
    rw [hd.keys] at hk
    rw [List.getElem?_eq_none_iff.mpr hk]
    rfl
  | some k =>
    have hl : i < gs.length := by
      rw [← hd.keys]
      exact (List.getElem?_eq_some_iff.mp hk).1
    obtain ⟨p, _, _, h, _⟩ := hd.key i gs[i] (List.getElem?_eq_getElem hl)
    rw [key_get hk] at h
    rw [List.getElem?_eq_getElem hl]
    simp [h]

/-- What is known of the page at a place. -/
structure Facts (t : Track) (gs : List (List Pack)) (s : State) (i : Nat) (sl : Slot) : Prop where
  count : 0 < sl.info.keyCount
  le : sl.info.firstKey + sl.info.keyCount ≤ t.keys.length
  parts : sl.info.parts = (packets gs sl.info.firstKey sl.info.keyCount).length
  size : ((packets gs sl.info.firstKey sl.info.keyCount).map packLen).sum ≤ sl.info.size
  small : sl.info.size < 4294967296
  last : i = s.slots.length - 1 → sl.info.firstKey + sl.info.keyCount = t.keys.length
  notLast : i ≠ s.slots.length - 1 → sl.info.firstKey + sl.info.keyCount < t.keys.length

theorem split_pages {t : Track} (hm : ∀ g ∈ pagesOf [] t.keys, Small g) : split 0 none t.keys = recs 0 (pagesOf [] t.keys) := by
  have := split_recs t.keys [] 0 hm
  rw [if_pos rfl] at this
  exact this

theorem slot_rec {t : Track} (hm : ∀ g ∈ pagesOf [] t.keys, Small g) {s : State} (hi : s.slots.map (·.info) = split 0 none t.keys) {i : Nat} {sl : Slot}
    (h : s.slots[i]? = some sl) : ∃ c, (pagesOf [] t.keys)[i]? = some c ∧ sl.info = recOf (firstOf (pagesOf [] t.keys) i) c := by
  have h1 : (s.slots.map (·.info))[i]? = some sl.info := by rw [List.getElem?_map, h]; rfl
  rw [hi, split_pages hm, recs_get] at h1
  cases hc : (pagesOf [] t.keys)[i]? with
  | none => rw [hc] at h1; cases h1
  | some c =>
    rw [hc] at h1
    refine ⟨c, rfl, ?_⟩
    have : recOf (0 + firstOf (pagesOf [] t.keys) i) c = sl.info := Option.some.inj h1
    rw [← this, Nat.zero_add]

theorem facts {t : Track} {gs : List (List Pack)} (hd : Describes t gs) {s : State} (hi : s.slots.map (·.info) = split 0 none t.keys) {i : Nat} {sl : Slot}
    (h : s.slots[i]? = some sl) : Facts t gs s i sl := by
  obtain ⟨c, hc, hr⟩ := slot_rec hd.small hi h
  have hmem : c ∈ pagesOf [] t.keys := List.mem_of_getElem? hc
  have hlen : s.slots.length = (pagesOf [] t.keys).length := by
    have := congrArg List.length hi
    rw [split_pages hd.small, recs_length, List.length_map] at this
    exact this
  have hfl : (pagesOf [] t.keys).flatten = t.keys := by rw [pages_flatten]; rfl
  have hceq : c = (t.keys.drop (firstOf (pagesOf [] t.keys) i)).take c.length := by
    have := chunk_eq hc
    rw [hfl] at this
    exact this
  have hpos : 0 < c.length := List.length_pos_iff.mpr (pages_ne _ _ c hmem)
  have hsucc := firstOf_succ hc
  have hle := firstOf_le (pagesOf [] t.keys) (i + 1)
  have hne := pages_ne t.keys []
  generalize hF : firstOf (pagesOf [] t.keys) i = F at *
  have e1 : sl.info.firstKey = F := by rw [hr]; rfl
  have e2 : sl.info.keyCount = c.length := by rw [hr]; rfl
  have e3 : sl.info.parts = (c.map (·.parts)).sum := by rw [hr]; rfl
  have e4 : sl.info.size = (c.map (·.size)).sum := by rw [hr]; rfl
  have hlt : i < (pagesOf [] t.keys).length := (List.getElem?_eq_some_iff.mp hc).1
  refine ⟨by rw [e2]; exact hpos, by rw [e1, e2, ← hsucc, ← congrArg List.length hfl]; exact hle, ?_, ?_, ?_, ?_, ?_⟩
  · rw [e3, e1, e2]
    unfold packets
    rw [length_flatten, List.map_take, List.map_drop, ← parts_eq hd, ← List.map_drop, ← List.map_take, ← hceq]
  · rw [e4, e1, e2]
    unfold packets
    rw [sum_flatten]
    generalize hn : c.length = n at *
    rw [hceq]
    apply sum_le
    · simp [hd.keys]
    · intro j x y hx hy
      rw [List.getElem?_map] at hx hy
      rw [List.getElem?_take] at hx hy
      split at hx
      · rename_i hjn
        rw [if_pos hjn] at hy
        rw [List.getElem?_drop] at hx hy
        cases hg : gs[F + j]? with
        | none => rw [hg] at hx; cases hx
        | some g =>
          cases hk : t.keys[F + j]? with
          | none => rw [hk] at hy; cases hy
          | some k =>
            rw [hg] at hx
            rw [hk] at hy
            have hx' : (g.map packLen).sum = x := Option.some.inj hx
            have hy' : k.size = y := Option.some.inj hy
            obtain ⟨_, _, _, _, h5, _⟩ := hd.key (F + j) g hg
            rw [key_get hk] at h5
            omega
      · cases hx
  · rw [e4]
    exact (hd.small c hmem).2.2
  · intro hi2
    rw [e1, e2, ← hsucc]
    have : i + 1 = (pagesOf [] t.keys).length := by omega
    unfold firstOf
    rw [this, List.take_length, hfl]
  · intro hi2
    rw [e1, e2, ← hsucc]
    have hlt2 : i + 1 < (pagesOf [] t.keys).length := by omega
    have hc2 := List.getElem?_eq_getElem hlt2
    have hs2 := firstOf_succ hc2
    have hp2 : 0 < (pagesOf [] t.keys)[i + 1].length := List.length_pos_iff.mpr (hne _ (List.getElem_mem hlt2))
    have := firstOf_le (pagesOf [] t.keys) (i + 1 + 1)
    rw [hfl] at this
    omega

theorem drop_skipped {p : Pack → Bool} (a b : List Pack) (h : ∀ x ∈ a, p x = true) : (a ++ b).dropWhile p = b.dropWhile p := by
  induction a with
  | nil => rfl
  | cons x a ih =>
    rw [List.cons_append, List.dropWhile_cons_of_pos (h x List.mem_cons_self)]
    exact ih fun y hy => h y (List.mem_cons_of_mem _ hy)

/-- The packets before a key are earlier, the others are not. -/
theorem key_cut {t : Track} {gs : List (List Pack)} (hd : Describes t gs) {F : Nat} (hF : F < t.keys.length) :
    (∀ q ∈ (gs.take F).flatten, q.time < (t.key F).time) ∧ (∀ q ∈ (gs.drop F).flatten, (t.key F).time ≤ q.time) := by
  have hl : F < gs.length := by rw [← hd.keys]; exact hF
  obtain ⟨p, h1, h2, _⟩ := hd.key F gs[F] (List.getElem?_eq_getElem hl)
  constructor
  · rw [h2]
    exact hd.later F gs[F] p (List.getElem?_eq_getElem hl) h1
  · have ho := hd.order
    rw [← List.take_append_drop F gs, List.flatten_append, List.pairwise_append] at ho
    have ho2 := ho.2.1
    rw [List.drop_eq_getElem_cons hl, List.flatten_cons] at ho2 ⊢
    cases hg : gs[F] with
    | nil => rw [hg] at h1; cases h1
    | cons x g =>
      rw [hg] at h1 ho2
      have hx : x = p := Option.some.inj h1
      subst hx
      rw [List.cons_append, List.pairwise_cons] at ho2
      intro q hq
      rw [h2]
      rw [List.cons_append] at hq
      rcases List.mem_cons.mp hq with rfl | hq
      · exact Nat.le_refl _
      · exact ho2.1 q hq

/-- Loading a page from the recording gives exactly its packets, all counted. -/
theorem load_page {t : Track} {gs : List (List Pack)} (hd : Describes t gs) {s : State} {i : Nat} {sl : Slot} (hf : Facts t gs s i sl)
    {src : Nat → List Pack} (hsrc : Faithful gs src) :
    (loaded t s i sl (src (t.key sl.info.firstKey).time)).2 = sl.info.parts ∧ (loaded t s i sl (src (t.key sl.info.firstKey).time)).1.info = sl.info ∧
    Full gs (loaded t s i sl (src (t.key sl.info.firstKey).time)).1 := by
  obtain ⟨hpos, hle, hparts, hsize, hsmall, hlast, hnot⟩ := hf
  unfold loaded stopOf
  generalize hF : sl.info.firstKey = F at *
  generalize hn : sl.info.keyCount = n at *
  obtain ⟨hcut1, hcut2⟩ := key_cut hd (F := F) (by omega)
  obtain ⟨sk, hsk1, hsk2⟩ := hsrc (t.key F).time
  have hall : gs.flatten = (gs.take F).flatten ++ (packets gs F n ++ (gs.drop (F + n)).flatten) := by
    conv => lhs; rw [← List.take_append_drop F gs, List.flatten_append]
    congr 1
    unfold packets
    conv => lhs; rw [← List.take_append_drop n (gs.drop F), List.flatten_append, List.drop_drop]
  have hdrop : (gs.drop F).flatten = packets gs F n ++ (gs.drop (F + n)).flatten := by
    unfold packets
    conv => lhs; rw [← List.take_append_drop n (gs.drop F), List.flatten_append, List.drop_drop]
  have hdw : (src (t.key F).time).dropWhile (fun p => decide (p.time < (t.key F).time)) = packets gs F n ++ (gs.drop (F + n)).flatten := by
    rw [← drop_skipped sk _ (fun x hx => decide_eq_true (hsk2 x hx)), ← hsk1, hall]
    apply drop_while
    · exact fun x hx => decide_eq_true (hcut1 x hx)
    · intro x hx
      rw [← hdrop] at hx
      exact decide_eq_false (Nat.not_lt.mpr (hcut2 x hx))
  have hstop : (∀ q ∈ packets gs F n, q.time < if i ≠ s.slots.length - 1 then (t.key (F + n)).time else t.lastms + 1) ∧
      ∀ q ∈ (gs.drop (F + n)).flatten, (if i ≠ s.slots.length - 1 then (t.key (F + n)).time else t.lastms + 1) ≤ q.time := by
    by_cases hi : i ≠ s.slots.length - 1
    · rw [if_pos hi]
      obtain ⟨h1, h2⟩ := key_cut hd (hnot hi)
      refine ⟨fun q hq => h1 q ?_, h2⟩
      unfold packets at hq
      rw [List.take_add, List.flatten_append]
      exact List.mem_append_right _ hq
    · rw [if_neg hi]
      have h1 := hlast (Classical.byContradiction hi)
      have h2 : gs.drop (F + n) = [] := by rw [h1, hd.keys, List.drop_length]
      rw [h2]
      refine ⟨?_, fun q hq => by cases hq⟩
      intro q hq
      have hm : q ∈ gs.flatten := by
        rw [hall]
        exact List.mem_append_right _ (List.mem_append_left _ hq)
      have hne : gs.flatten ≠ [] := List.ne_nil_of_mem hm
      have hl := hd.last _ (List.getLast?_eq_some_getLast hne)
      rw [hl]
      have ho := hd.order
      rw [← List.dropLast_concat_getLast hne] at hm ho
      rw [List.pairwise_append] at ho
      rcases List.mem_append.mp hm with hm | hm
      · have := ho.2.2 q hm _ List.mem_cons_self
        omega
      · rw [List.mem_singleton.mp hm]
        omega
  have hpart : (t.key F).firstPart = (gs.take F).flatten.length := by
    have hl : F < gs.length := by rw [← hd.keys]; omega
    obtain ⟨_, _, _, _, _, h⟩ := hd.key F gs[F] (List.getElem?_eq_getElem hl)
    exact h
  have hord : (packets gs F n).Pairwise (fun a b => a.time ≤ b.time) := by
    have ho := hd.order
    rw [hall, List.pairwise_append] at ho
    have ho2 := ho.2.1
    rw [List.pairwise_append] at ho2
    exact ho2.1
  have hsz : ∀ (j : Nat) p, (packets gs F n)[j]? = some p → t.sizes.getD ((t.key F).firstPart + j) 0 = p.data.length := by
    intro j p hp
    have hj := (List.getElem?_eq_some_iff.mp hp).1
    rw [hd.sizes, hpart, hall, List.getD_eq_getElem?_getD, List.getElem?_map, List.getElem?_append_right (by omega),
      List.getElem?_append_left (by omega), show (gs.take F).flatten.length + j - (gs.take F).flatten.length = j from by omega, hp]
    rfl
  rw [hdw]
  generalize hst : (if i ≠ s.slots.length - 1 then (t.key (F + n)).time else t.lastms + 1) = stop at *
  rw [load_run t.sizes stop _ hstop.2 (packets gs F n) (t.key F).firstPart 0 0 sl.empty hstop.1 (fun _ _ => Nat.zero_le _) hord hsz]
  obtain ⟨b1, b2, b3⟩ := buffer_fold (packets gs F n) sl.empty
  have he : sl.empty.info = sl.info ∧ sl.empty.avail = 0 ∧ sl.empty.mem = [] := ⟨rfl, rfl, rfl⟩
  rw [he.1] at b1
  refine ⟨by rw [hparts, Nat.zero_add], b1, ?_⟩
  unfold Full
  dsimp only
  rw [b1, b2, b3, he.1, he.2.1, he.2.2, hF, hn]
  refine ⟨?_, rfl⟩
  rw [buffer_avail _ (by omega) _ 0 (by omega)]
  omega

end Verif.Vod
