import Verif.Vod.Ahead

/-!
# C103: the order in which pages are loaded
-/
namespace Verif.Vod
open Verif Verif.Page Spec

theorem insert_last (e : Nat × Nat) : ∀ (l : List (Nat × Nat)), (∀ x ∈ l, e.2 < x.2) → insertPage e l = l ++ [e]
  | [], _ => rfl
  | x :: l, h => by
    unfold insertPage
    have := h x List.mem_cons_self
    rw [if_neg (by omega), insert_last e l fun y hy => h y (List.mem_cons_of_mem _ hy)]
    rfl

theorem order_fold : ∀ (l acc : List (Nat × Nat)), (acc ++ l).Pairwise (fun a b => b.2 < a.2) → l.foldl (fun acc e => insertPage e acc) acc = acc ++ l
  | [], acc, _ => by simp
  | e :: l, acc, h => by
    have h2 := h
    rw [List.pairwise_append] at h2
    rw [List.foldl_cons, insert_last e acc fun x hx => h2.2.2 x hx e List.mem_cons_self, order_fold l (acc ++ [e]) (by simpa using h)]
    simp

theorem order_sorted (l : List (Nat × Nat)) (h : l.Pairwise fun a b => b.2 < a.2) : order l = l.map (·.1) := by
  unfold order
  rw [order_fold l [] (by simpa using h)]
  rfl

theorem pages_gap : ∀ (ks cur : List Index.Key) (i : Nat) (c d : List Index.Key), (pagesOf cur ks)[i]? = some c → (pagesOf cur ks)[i + 1]? = some d →
    ∃ a b, c.head? = some a ∧ c.getLast? = some b ∧ b.time > a.time + 20000
  | [], cur, i, c, d, h1, h2 => by
    unfold pagesOf at h2
    split at h2
    · cases h2
    · cases i <;> cases h2
  | k :: ks, cur, i, c, d, h1, h2 => by
    unfold pagesOf at h1 h2
    split at h1
    next hc =>
      rw [if_pos hc] at h2
      cases i with
      | zero =>
        rw [List.getElem?_cons_zero] at h1
        cases h1
        refine ⟨(cur ++ [k]).head (by simp), k, List.head?_eq_some_head _, by simp, by omega⟩
      | succ i =>
        rw [List.getElem?_cons_succ] at h1 h2
        exact pages_gap ks [] i c d h1 h2
    next hc =>
      rw [if_neg hc] at h2
      exact pages_gap ks (cur ++ [k]) i c d h1 h2

/-- Pages start more than 20 seconds after each other. -/
theorem slots_gap {t : Track} (hm : ∀ g ∈ pagesOf [] t.keys, Small g) (ht : Timed t) {s : State} (hi : s.slots.map (·.info) = split 0 none t.keys) {i j : Nat} {a b : Slot}
    (ha : s.slots[i]? = some a) (hb : s.slots[j]? = some b) (hij : i < j) : (t.key a.info.firstKey).time + 20000 < (t.key b.info.firstKey).time := by
  have hfl : (pagesOf [] t.keys).flatten = t.keys := by rw [pages_flatten]; rfl
  obtain ⟨c, hc, hr⟩ := slot_rec hm hi ha
  obtain ⟨d, hd, hq⟩ := slot_rec hm hi hb
  have hj := (List.getElem?_eq_some_iff.mp hd).1
  have hi1 : i + 1 < (pagesOf [] t.keys).length := by omega
  have hnx := List.getElem?_eq_getElem hi1
  obtain ⟨x, y, hx, hy, hgap⟩ := pages_gap t.keys [] i c _ hc hnx
  have hceq := chunk_eq hc
  rw [hfl] at hceq
  have hcne : c ≠ [] := pages_ne _ _ c (List.mem_of_getElem? hc)
  have hcl : 0 < c.length := List.length_pos_iff.mpr hcne
  have hs1 := firstOf_succ hc
  have hmono := firstOf_mono (pagesOf [] t.keys) (show i + 1 ≤ j from hij)
  have hdl : 0 < d.length := List.length_pos_iff.mpr (pages_ne _ _ d (List.mem_of_getElem? hd))
  have hs2 := firstOf_succ hd
  have hle := firstOf_le (pagesOf [] t.keys) (j + 1)
  rw [hfl] at hle
  have e1 : a.info.firstKey = firstOf (pagesOf [] t.keys) i := by rw [hr]; rfl
  have e2 : b.info.firstKey = firstOf (pagesOf [] t.keys) j := by rw [hq]; rfl
  have hget : ∀ m, m < c.length → t.keys[firstOf (pagesOf [] t.keys) i + m]? = c[m]? := by
    intro m hml
    conv => rhs; rw [hceq]
    rw [List.getElem?_take, if_pos hml, List.getElem?_drop]
  have hx1 : (t.key a.info.firstKey).time = x.time := by
    have := hget 0 hcl
    rw [← List.head?_eq_getElem?, hx, Nat.add_zero] at this
    rw [e1, key_get this]
  have hy1 : (t.key (firstOf (pagesOf [] t.keys) i + (c.length - 1))).time = y.time := by
    have := hget (c.length - 1) (by omega)
    rw [← List.getLast?_eq_getElem?, hy] at this
    rw [key_get this]
  have := times_mono ht (show firstOf (pagesOf [] t.keys) i + (c.length - 1) < b.info.firstKey by omega) (by omega)
  omega

theorem prio_wrap {W n : Nat} (hW : 600 < W) (hn : n ≤ 600) : (600 + W - n) % W = 600 - n := by
  rw [show 600 + W - n = (600 - n) + W from by omega, Nat.add_mod_right]
  exact Nat.mod_eq_of_lt (by omega)

/-- **C103.** The pages for a viewer are loaded in the order in which they are played, the one that is needed now first. Missing: a page that starts more
than ten minutes later, see `C103_order_fails`. -/
theorem C103_order_partial (t : Track) (hm : ∀ g ∈ pagesOf [] t.keys, Small g) (ht : Timed t) (timeout : Nat) (ops : List Op) (key : Nat) (hk : key < t.keys.length)
    (hnear : ∀ f ∈ (userOnActive t (run t timeout ops) key).map (·.1), (t.key f).time ≤ (t.key key).time + 600999) :
    order (userOnActive t (run t timeout ops) key) = (userOnActive t (run t timeout ops) key).map (·.1) ∧
    ∃ sl ∈ (run t timeout ops).slots, On sl key ∧ (order (userOnActive t (run t timeout ops) key)).head? = some sl.info.firstKey := by
  have hinf : (run t timeout ops).slots.map (·.info) = split 0 none t.keys := (infos_ops t timeout ops _).trans (inv_start t []).infos
  generalize run t timeout ops = s at *
  obtain ⟨e1, e2, e3⟩ := end_key ht hk
  obtain ⟨sl, hsl, hon⟩ := found_page hm hinf hk
  have hah := ahead_from hm hinf (t.key key).time (endKey t key) e2 (endKey t key + 1 - key) _ key sl hsl hon (by omega) (by omega)
  have hah2 : userOnActive t s key = ((sl :: (s.slots.drop (pageIdx key s.slots 0 0 + 1)).takeWhile fun x => decide (x.info.firstKey ≤ endKey t key)).map
      fun x => (x.info.firstKey, priority t (t.key key).time x.info.firstKey)) := by
    unfold userOnActive
    exact hah
  clear hah
  rw [hah2] at hnear ⊢
  rw [List.map_map] at hnear
  have hsub : (sl :: (s.slots.drop (pageIdx key s.slots 0 0 + 1)).takeWhile fun x => decide (x.info.firstKey ≤ endKey t key)).Sublist (s.slots.drop (pageIdx key s.slots 0 0)) := by
    have hlt := (List.getElem?_eq_some_iff.mp hsl).1
    have hd : s.slots.drop (pageIdx key s.slots 0 0) = sl :: s.slots.drop (pageIdx key s.slots 0 0 + 1) := by
      rw [List.drop_eq_getElem_cons hlt, (List.getElem?_eq_some_iff.mp hsl).2]
    rw [hd]
    exact List.Sublist.cons_cons sl (List.takeWhile_sublist _)
  have hpw : s.slots.Pairwise fun a b => (t.key a.info.firstKey).time + 20000 < (t.key b.info.firstKey).time := by
    rw [List.pairwise_iff_getElem]
    intro i j hi hj hij
    exact slots_gap hm ht hinf (List.getElem?_eq_getElem hi) (List.getElem?_eq_getElem hj) hij
  have hpl := hpw.sublist (hsub.trans (List.drop_sublist _ _))
  have hafter : ∀ x ∈ (s.slots.drop (pageIdx key s.slots 0 0 + 1)).takeWhile (fun x => decide (x.info.firstKey ≤ endKey t key)), (t.key key).time < (t.key x.info.firstKey).time := by
    intro x hx
    obtain ⟨m, hmx⟩ := List.mem_iff_getElem?.mp ((List.takeWhile_sublist _).subset hx)
    rw [List.getElem?_drop] at hmx
    obtain ⟨c, hc, hr⟩ := slot_rec hm hinf hsl
    obtain ⟨d, hd, hq⟩ := slot_rec hm hinf hmx
    have hmono := firstOf_mono (pagesOf [] t.keys) (show pageIdx key s.slots 0 0 + 1 ≤ pageIdx key s.slots 0 0 + 1 + m by omega)
    have e1 : sl.info.firstKey = firstOf (pagesOf [] t.keys) (pageIdx key s.slots 0 0) := by rw [hr]; rfl
    have e2 : sl.info.keyCount = c.length := by rw [hr]; rfl
    have e3 : x.info.firstKey = firstOf (pagesOf [] t.keys) (pageIdx key s.slots 0 0 + 1 + m) := by rw [hq]; rfl
    have hs1 := firstOf_succ hc
    have hdl : 0 < d.length := List.length_pos_iff.mpr (pages_ne _ _ d (List.mem_of_getElem? hd))
    have hs2 := firstOf_succ hd
    have hle := firstOf_le (pagesOf [] t.keys) (pageIdx key s.slots 0 0 + 1 + m + 1)
    have hfl : (pagesOf [] t.keys).flatten = t.keys := by rw [pages_flatten]; rfl
    rw [hfl] at hle
    have := hon.2
    exact times_mono ht (by omega) (by omega)
  have hnow : (t.key sl.info.firstKey).time ≤ (t.key key).time := by
    by_cases he : sl.info.firstKey = key
    · rw [he]; exact Nat.le_refl _
    · have := hon.1
      have := times_mono ht (show sl.info.firstKey < key by omega) hk
      omega
  generalize (s.slots.drop (pageIdx key s.slots 0 0 + 1)).takeWhile (fun x => decide (x.info.firstKey ≤ endKey t key)) = later at *
  rw [List.pairwise_cons] at hpl
  have hp1 : priority t (t.key key).time sl.info.firstKey = 10000 := by
    unfold priority
    rw [if_pos hnow]
  have hp2 : ∀ x ∈ later, priority t (t.key key).time x.info.firstKey = 600 - ((t.key x.info.firstKey).time - (t.key key).time) / 1000 ∧
      ((t.key x.info.firstKey).time - (t.key key).time) / 1000 ≤ 600 := by
    intro x hx
    have h1 := hafter x hx
    have h2 := hnear x.info.firstKey (List.mem_map.mpr ⟨x, List.mem_cons_of_mem _ hx, rfl⟩)
    have h3 : ((t.key x.info.firstKey).time - (t.key key).time) / 1000 ≤ 600 := by omega
    unfold priority
    rw [if_neg (by omega)]
    exact ⟨prio_wrap (by decide) h3, h3⟩
  have hsort : ((sl :: later).map fun x => (x.info.firstKey, priority t (t.key key).time x.info.firstKey)).Pairwise fun a b => b.2 < a.2 := by
    rw [List.map_cons, List.pairwise_cons]
    constructor
    · intro e he
      obtain ⟨x, hx, rfl⟩ := List.mem_map.mp he
      have := (hp2 x hx).1
      show priority t (t.key key).time x.info.firstKey < priority t (t.key key).time sl.info.firstKey
      rw [hp1]
      omega
    · rw [List.pairwise_map]
      refine List.Pairwise.imp_of_mem ?_ hpl.2
      intro x y hx hy hxy
      obtain ⟨p1, p2⟩ := hp2 x hx
      obtain ⟨q1, q2⟩ := hp2 y hy
      have := hafter x hx
      show priority t (t.key key).time y.info.firstKey < priority t (t.key key).time x.info.firstKey
      rw [p1, q1]
      omega
  have ho := order_sorted _ hsort
  refine ⟨ho, sl, List.mem_of_getElem? hsl, hon, ?_⟩
  rw [ho]
  rfl

/-- A recording with 2 keys a minute apart and one that is far behind. -/
def sampleFar : List (List Pack) := [0, 61000, 700000].map fun t => [⟨t, 0, 1, [1, 2, 3], 0, true⟩]

theorem timed_of (t : Track) (h : ∀ i < t.keys.length, i + 1 < t.keys.length → (t.key i).time < (t.key (i + 1)).time ∧ (t.key i).time + (t.key i).dur ≤ (t.key (i + 1)).time) : Timed t :=
  fun i hi => h i (by omega) hi

/-- **C103** fails when the next page starts more than ten minutes later, as in tracks with subtitles: the number of 64 bits goes below zero, and that page
is loaded before the page that is needed now. -/
theorem C103_order_fails : ∃ (t : Track) (key : Nat), Timed t ∧ key < t.keys.length ∧ (∀ g ∈ pagesOf [] t.keys, Small g) ∧
    (∃ sl ∈ (parseHeader t).slots, On sl key ∧ sl.info.firstKey = 0) ∧ order (userOnActive t (parseHeader t) key) = [2, 0] ∧
    (t.key key).time + 600000 < (t.key 2).time := by
  refine ⟨indexOf sampleFar, 1, timed_of _ (by decide +kernel), by decide +kernel, ?_, ?_, by decide +kernel, by decide +kernel⟩
  · have : ∀ g ∈ pagesOf [] (indexOf sampleFar).keys, g.length < 4294967296 ∧ (g.map (·.parts)).sum < 4294967296 ∧ (g.map (·.size)).sum < 4294967296 := by decide +kernel
    exact this
  · have : ((parseHeader (indexOf sampleFar)).slots.any fun sl => decide ((sl.info.firstKey ≤ 1 ∧ 1 < sl.info.firstKey + sl.info.keyCount) ∧ sl.info.firstKey = 0)) = true := by
      decide +kernel
    obtain ⟨sl, h1, h2⟩ := List.any_eq_true.mp this
    obtain ⟨h3, h4⟩ := of_decide_eq_true h2
    exact ⟨sl, h1, h3, h4⟩

/-- A viewer at the second key of the sample: both pages are loaded, in order. -/
example : Timed (indexOf sample) ∧ 1 < (indexOf sample).keys.length ∧ userOnActive (indexOf sample) (run (indexOf sample) 15 []) 1 = [(0, 10000), (3, 550)] ∧
    (∀ f ∈ (userOnActive (indexOf sample) (run (indexOf sample) 15 []) 1).map (·.1), ((indexOf sample).key f).time ≤ ((indexOf sample).key 1).time + 600999) :=
  ⟨timed_of _ (by decide +kernel), by decide +kernel, by decide +kernel, by decide +kernel⟩

end Verif.Vod
