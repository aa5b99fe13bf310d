import Verif.Vod.Read

/-!
# C103: what is loaded for a viewer
-/
namespace Verif.Vod
open Verif Verif.Page Spec

/-- The durations of keys are not longer than the time to the next key, and keys follow each other in time. -/
def Timed (t : Track) : Prop := ∀ i, i + 1 < t.keys.length → (t.key i).time < (t.key (i + 1)).time ∧ (t.key i).time + (t.key i).dur ≤ (t.key (i + 1)).time

theorem times_mono {t : Track} (h : Timed t) {i : Nat} : ∀ {j : Nat}, i < j → j < t.keys.length → (t.key i).time < (t.key j).time
  | 0, hij, _ => by omega
  | j + 1, hij, hj => by
    by_cases he : i = j
    · subst he
      exact (h i hj).1
    · have := times_mono h (show i < j by omega) (by omega)
      have := (h j hj).1
      omega

theorem key_for_time (ts : Nat) : ∀ (ks : List Index.Key) (i : Nat), i ≤ keyForTime ts i ks ∧ keyForTime ts i ks ≤ i + ks.length ∧
    (∀ k, ks[keyForTime ts i ks - i]? = some k → k.time = ts ∨ k.time + k.dur > ts) ∧ ∀ (j : Nat) k, i + j < keyForTime ts i ks → ks[j]? = some k → k.time < ts
  | [], i => by simp [keyForTime]
  | k :: ks, i => by
    unfold keyForTime
    by_cases h : k.time = ts ∨ k.time + k.dur > ts
    · rw [if_pos h]
      refine ⟨Nat.le_refl _, by simp, ?_, fun j _ hj => by omega⟩
      intro x hx
      rw [Nat.sub_self, List.getElem?_cons_zero] at hx
      cases hx
      exact h
    · rw [if_neg h]
      obtain ⟨h1, h2, h3, h4⟩ := key_for_time ts ks (i + 1)
      refine ⟨by omega, by simp only [List.length_cons]; omega, ?_, ?_⟩
      · intro x hx
        have e : keyForTime ts (i + 1) ks - i = (keyForTime ts (i + 1) ks - (i + 1)) + 1 := by omega
        rw [e, List.getElem?_cons_succ] at hx
        exact h3 x hx
      · intro j x hj hx
        cases j with
        | zero =>
          rw [List.getElem?_cons_zero] at hx
          cases hx
          omega
        | succ j => exact h4 j x (by omega) (by simpa using hx)

/-- Keys up to the time are not behind the key that is found. -/
theorem key_covers {t : Track} (h : Timed t) (ts j : Nat) (hj : j < t.keys.length) (ht : (t.key j).time ≤ ts) : j ≤ keyForTime ts 0 t.keys := by
  obtain ⟨_, _, h3, _⟩ := key_for_time ts t.keys 0
  generalize keyForTime ts 0 t.keys = r at *
  apply Classical.byContradiction
  intro hc
  have hr : r < t.keys.length := by omega
  have hk := h3 _ (List.getElem?_eq_getElem hr)
  rw [← key_get (List.getElem?_eq_getElem hr)] at hk
  have hm := times_mono h (show r < j by omega) hj
  have hd := (h r (by omega)).2
  by_cases he : r + 1 = j
  · rw [he] at hd
    rcases hk with hk | hk <;> omega
  · have := times_mono h (show r + 1 < j by omega) hj
    rcases hk with hk | hk <;> omega

theorem key_behind {t : Track} (h : Timed t) (ts key : Nat) (hk : key < t.keys.length) (ht : (t.key key).time ≤ ts) :
    keyForTime ts 0 t.keys ≤ t.keys.length ∧ key ≤ keyForTime ts 0 t.keys := by
  obtain ⟨_, h2, _⟩ := key_for_time ts t.keys 0
  exact ⟨by omega, key_covers h ts key hk ht⟩

theorem end_key {t : Track} (h : Timed t) {key : Nat} (hk : key < t.keys.length) : key < endKey t key ∧ endKey t key ≤ t.keys.length ∧ endKey t key ≤ key + 1000 := by
  obtain ⟨h1, h2⟩ := key_behind h ((t.key key).time + 120000) key hk (by omega)
  unfold endKey
  generalize keyForTime ((t.key key).time + 120000) 0 t.keys = r at *
  split <;> omega

theorem page_of {t : Track} (hm : ∀ g ∈ pagesOf [] t.keys, Small g) {s : State} (hi : s.slots.map (·.info) = split 0 none t.keys) {i key : Nat} {sl : Slot}
    (h : s.slots[i]? = some sl) (ho : On sl key) : pageOf key s.slots = some sl.info := by
  unfold pageOf
  cases hf : s.slots.find? (fun s => decide (s.info.firstKey ≤ key ∧ s.info.firstKey + s.info.keyCount > key)) with
  | none =>
    rw [List.find?_eq_none] at hf
    have h2 := hf sl (List.mem_of_getElem? h)
    exact absurd (decide_eq_true (show sl.info.firstKey ≤ key ∧ sl.info.firstKey + sl.info.keyCount > key from ho)) h2
  | some x =>
    have hx0 := List.find?_some hf
    have hx : x.info.firstKey ≤ key ∧ x.info.firstKey + x.info.keyCount > key := of_decide_eq_true hx0
    obtain ⟨j, hj⟩ := List.mem_iff_getElem?.mp (List.mem_of_find?_eq_some hf)
    have := On_unique hm hi h hj ho hx
    subst this
    rw [h] at hj
    cases hj
    rfl

theorem page_none {t : Track} (hm : ∀ g ∈ pagesOf [] t.keys, Small g) {s : State} (hi : s.slots.map (·.info) = split 0 none t.keys) {key : Nat}
    (hk : t.keys.length ≤ key) : pageOf key s.slots = none := by
  unfold pageOf
  rw [List.find?_eq_none.mpr]
  · rfl
  · intro x hx
    obtain ⟨i, hi2⟩ := List.mem_iff_getElem?.mp hx
    obtain ⟨c, hc, hr⟩ := slot_rec hm hi hi2
    have h1 := firstOf_succ hc
    have h2 := firstOf_le (pagesOf [] t.keys) (i + 1)
    have hfl : (pagesOf [] t.keys).flatten = t.keys := by rw [pages_flatten]; rfl
    rw [hfl] at h2
    have e1 : x.info.firstKey = firstOf (pagesOf [] t.keys) i := by rw [hr]; rfl
    have e2 : x.info.keyCount = c.length := by rw [hr]; rfl
    intro hd
    have := of_decide_eq_true hd
    omega

/-- The page behind one that does not have the last key. -/
theorem next_page {t : Track} (hm : ∀ g ∈ pagesOf [] t.keys, Small g) {s : State} (hi : s.slots.map (·.info) = split 0 none t.keys) {i : Nat} {sl : Slot}
    (h : s.slots[i]? = some sl) : 0 < sl.info.keyCount ∧
    (∀ nx, s.slots[i + 1]? = some nx → nx.info.firstKey = sl.info.firstKey + sl.info.keyCount) ∧
    (s.slots[i + 1]? = none → sl.info.firstKey + sl.info.keyCount = t.keys.length) := by
  obtain ⟨c, hc, hr⟩ := slot_rec hm hi h
  have h1 := firstOf_succ hc
  have e1 : sl.info.firstKey = firstOf (pagesOf [] t.keys) i := by rw [hr]; rfl
  have e2 : sl.info.keyCount = c.length := by rw [hr]; rfl
  refine ⟨by rw [e2]; exact List.length_pos_iff.mpr (pages_ne _ _ c (List.mem_of_getElem? hc)), ?_, ?_⟩
  · intro nx hn
    obtain ⟨d, _, hq⟩ := slot_rec hm hi hn
    rw [hq, e1, e2, ← h1]
    rfl
  · intro hn
    rw [List.getElem?_eq_none_iff] at hn
    have hlen := congrArg List.length hi
    rw [split_pages hm, recs_length, List.length_map] at hlen
    have hfl : (pagesOf [] t.keys).flatten = t.keys := by rw [pages_flatten]; rfl
    rw [e1, e2, ← h1]
    unfold firstOf
    rw [List.take_of_length_le (by omega), hfl]

/-- The pages from a place on that start not behind the last key. -/
theorem ahead_from {t : Track} (hm : ∀ g ∈ pagesOf [] t.keys, Small g) {s : State} (hi : s.slots.map (·.info) = split 0 none t.keys) (time last : Nat)
    (hl : last ≤ t.keys.length) : ∀ (n i key : Nat) (sl : Slot), s.slots[i]? = some sl → On sl key → key ≤ last → last < key + n →
    ahead t s.slots time last n key = ((sl :: (s.slots.drop (i + 1)).takeWhile fun x => decide (x.info.firstKey ≤ last)).map fun x => (x.info.firstKey, priority t time x.info.firstKey))
  | 0, _, _, _, _, _, h1, h2 => by omega
  | n + 1, i, key, sl, h, ho, h1, h2 => by
    obtain ⟨hpos, hnx, hno⟩ := next_page hm hi h
    unfold ahead
    have hkl : key ≤ t.keys.length := by omega
    rw [if_neg (by omega), page_of hm hi h ho]
    dsimp only
    rw [if_neg (by omega), List.map_cons]
    congr 1
    obtain ⟨o1, o2⟩ := ho
    cases hs : s.slots[i + 1]? with
    | none =>
      have he := hno hs
      rw [List.getElem?_eq_none_iff] at hs
      rw [List.drop_of_length_le hs]
      rw [he]
      show _ = []
      cases n with
      | zero => rfl
      | succ n =>
        unfold ahead
        split
        · rfl
        · rw [page_none hm hi (Nat.le_refl _)]
    | some nx =>
      have hf := hnx nx hs
      have hlt := (List.getElem?_eq_some_iff.mp hs).1
      have hget : s.slots[i + 1] = nx := (List.getElem?_eq_some_iff.mp hs).2
      rw [List.drop_eq_getElem_cons hlt, hget, ← hf]
      by_cases hc : nx.info.firstKey ≤ last
      · rw [List.takeWhile_cons_of_pos (by exact decide_eq_true hc)]
        exact ahead_from hm hi time last hl n (i + 1) nx.info.firstKey nx hs ⟨Nat.le_refl _, by have := (next_page hm hi hs).1; omega⟩ hc (by omega)
      · rw [List.takeWhile_cons_of_neg (by simpa using hc)]
        cases n with
        | zero => rfl
        | succ n =>
          unfold ahead
          rw [if_pos (.inl (by omega))]
          rfl

/-- **C103.** For a viewer at a key, pages are loaded in time: the page of that key, of the next key, and of every key within the next two minutes, up to
a thousand keys; and nothing but the pages of the keys up to the last of these. -/
theorem C103_ahead (t : Track) (hm : ∀ g ∈ pagesOf [] t.keys, Small g) (ht : Timed t) (timeout : Nat) (ops : List Op) (key : Nat) (hk : key < t.keys.length) :
    (∀ j, key ≤ j → j < t.keys.length → (j ≤ key + 1 ∨ ((t.key j).time ≤ (t.key key).time + 120000 ∧ j ≤ key + 1000)) →
      ∃ sl ∈ (run t timeout ops).slots, On sl j ∧ sl.info.firstKey ∈ (userOnActive t (run t timeout ops) key).map (·.1)) ∧
    (∀ f ∈ (userOnActive t (run t timeout ops) key).map (·.1), ∃ sl ∈ (run t timeout ops).slots, sl.info.firstKey = f ∧
      key < sl.info.firstKey + sl.info.keyCount ∧ sl.info.firstKey ≤ key + 1000 ∧
      (sl.info.firstKey ≤ key + 1 ∨ ∃ k, sl.info.firstKey = k + 1 ∧ (t.key k).time ≤ (t.key key).time + 120000)) ∧
    ((userOnActive t (run t timeout ops) key).map (·.1)).Pairwise (· < ·) := by
  have hinf : (run t timeout ops).slots.map (·.info) = split 0 none t.keys := (infos_ops t timeout ops _).trans (inv_start t []).infos
  generalize run t timeout ops = s at *
  obtain ⟨e1, e2, e3⟩ := end_key ht hk
  obtain ⟨sl, hsl, hon⟩ := found_page hm hinf hk
  have hah := ahead_from hm hinf (t.key key).time (endKey t key) e2 (endKey t key + 1 - key) _ key sl hsl hon (by omega) (by omega)
  have hah2 : (userOnActive t s key).map (·.1) =
      (sl :: (s.slots.drop (pageIdx key s.slots 0 0 + 1)).takeWhile fun x => decide (x.info.firstKey ≤ endKey t key)).map (·.info.firstKey) := by
    unfold userOnActive
    rw [hah, List.map_map]
    rfl
  rw [hah2]
  generalize hp : pageIdx key s.slots 0 0 = p at *
  have hinc : ∀ (i j : Nat) a b, s.slots[i]? = some a → s.slots[j]? = some b → i < j → a.info.firstKey + a.info.keyCount ≤ b.info.firstKey := by
    intro i j a b ha hb hij
    obtain ⟨c, hc, hr⟩ := slot_rec hm hinf ha
    obtain ⟨d, hd, hq⟩ := slot_rec hm hinf hb
    have := firstOf_mono (pagesOf [] t.keys) (show i + 1 ≤ j from hij)
    rw [firstOf_succ hc] at this
    rw [hr, hq]
    exact this
  have hend : ∀ j, j < t.keys.length → (j ≤ key + 1 ∨ ((t.key j).time ≤ (t.key key).time + 120000 ∧ j ≤ key + 1000)) → j ≤ endKey t key := by
    intro j hj hc
    rcases hc with hc | ⟨hc, hc2⟩
    · omega
    · have := key_covers ht _ j hj hc
      unfold endKey
      split <;> omega
  have hendU : endKey t key ≤ key + 1 ∨ ∃ k, endKey t key = k + 1 ∧ k < t.keys.length ∧ (t.key k).time ≤ (t.key key).time + 120000 := by
    by_cases hle : endKey t key ≤ key + 1
    · exact .inl hle
    · right
      obtain ⟨_, h2, _, h4⟩ := key_for_time ((t.key key).time + 120000) t.keys 0
      have hle2 : endKey t key ≤ keyForTime ((t.key key).time + 120000) 0 t.keys := by
        unfold endKey at hle ⊢
        split at hle
        · omega
        · rename_i hne
          rw [if_neg hne]
          omega
      have hlt : endKey t key - 1 < t.keys.length := by omega
      refine ⟨endKey t key - 1, by omega, hlt, ?_⟩
      have := h4 (endKey t key - 1) _ (by omega) (List.getElem?_eq_getElem hlt)
      rw [key_get (List.getElem?_eq_getElem hlt)]
      omega
  refine ⟨?_, ?_, ?_⟩
  · intro j hj1 hj2 hj3
    have hje := hend j hj2 hj3
    obtain ⟨sj, hsj, hoj⟩ := found_page hm hinf hj2
    refine ⟨sj, List.mem_of_getElem? hsj, hoj, ?_⟩
    generalize pageIdx j s.slots 0 0 = q at *
    apply List.mem_map_of_mem (f := fun x : Slot => x.info.firstKey)
    by_cases hpq : q = p
    · subst hpq
      rw [hsl] at hsj
      cases hsj
      exact List.mem_cons_self
    · have hlt : p < q := by
        rcases Nat.lt_or_ge p q with h | h
        · exact h
        · have := hinc q p sj sl hsj hsl (by omega)
          unfold On at hon hoj
          omega
      refine List.mem_cons_of_mem _ ?_
      have hsplit : s.slots.drop (p + 1) = (s.slots.drop (p + 1)).take (q - (p + 1) + 1) ++ s.slots.drop (q + 1) := by
        conv => lhs; rw [← List.take_append_drop (q - (p + 1) + 1) (s.slots.drop (p + 1)), List.drop_drop]
        congr 2
        omega
      rw [hsplit, List.takeWhile_append_of_pos]
      · apply List.mem_append_left
        refine List.mem_iff_getElem?.mpr ⟨q - (p + 1), ?_⟩
        rw [List.getElem?_take, if_pos (by omega), List.getElem?_drop, show p + 1 + (q - (p + 1)) = q from by omega]
        exact hsj
      · intro x hx
        obtain ⟨m, hmx⟩ := List.mem_iff_getElem?.mp hx
        rw [List.getElem?_take] at hmx
        split at hmx
        · rename_i hml
          rw [List.getElem?_drop] at hmx
          apply decide_eq_true
          unfold On at hoj
          by_cases he : p + 1 + m = q
          · rw [he, hsj] at hmx
            cases hmx
            omega
          · have := hinc (p + 1 + m) q x sj hmx hsj (by omega)
            omega
        · cases hmx
  · intro f hf
    obtain ⟨x, hx, rfl⟩ := List.mem_map.mp hf
    have hmemx : ∃ i : Nat, p ≤ i ∧ s.slots[i]? = some x ∧ x.info.firstKey ≤ endKey t key := by
      rcases List.mem_cons.mp hx with rfl | hx
      · exact ⟨p, Nat.le_refl _, hsl, by unfold On at hon; omega⟩
      · have h1 := List.all_eq_true.mp (List.all_takeWhile (p := fun x : Slot => decide (x.info.firstKey ≤ endKey t key)) (l := s.slots.drop (p + 1))) x hx
        obtain ⟨m, hmx⟩ := List.mem_iff_getElem?.mp ((List.takeWhile_sublist _).subset hx)
        rw [List.getElem?_drop] at hmx
        exact ⟨p + 1 + m, by omega, hmx, of_decide_eq_true h1⟩
    obtain ⟨i, hpi, hxi, hxe⟩ := hmemx
    refine ⟨x, List.mem_of_getElem? hxi, rfl, ?_, by omega, ?_⟩
    · by_cases he : i = p
      · subst he
        rw [hsl] at hxi
        cases hxi
        exact hon.2
      · have := hinc p i sl x hsl hxi (by omega)
        have := hon.2
        omega
    · by_cases hx1 : x.info.firstKey ≤ key + 1
      · exact .inl hx1
      · right
        rcases hendU with h | ⟨k, hk1, hk2, hk3⟩
        · omega
        · refine ⟨x.info.firstKey - 1, by omega, ?_⟩
          by_cases he : x.info.firstKey - 1 = k
          · rw [he]; exact hk3
          · have := times_mono ht (show x.info.firstKey - 1 < k by omega) hk2
            omega
  · have hpw : (s.slots.map (·.info.firstKey)).Pairwise (· < ·) := by
      rw [List.pairwise_map, List.pairwise_iff_getElem]
      intro i j hi hj hij
      have h1 := hinc i j _ _ (List.getElem?_eq_getElem hi) (List.getElem?_eq_getElem hj) hij
      have h2 := (next_page hm hinf (List.getElem?_eq_getElem hi)).1
      omega
    refine List.Pairwise.sublist (List.Sublist.map _ ?_) hpw
    have hlt := (List.getElem?_eq_some_iff.mp hsl).1
    have hd : s.slots.drop p = sl :: s.slots.drop (p + 1) := by
      rw [List.drop_eq_getElem_cons hlt, (List.getElem?_eq_some_iff.mp hsl).2]
    refine List.Sublist.trans (List.Sublist.cons_cons sl (List.takeWhile_sublist _)) ?_
    rw [← hd]
    exact List.drop_sublist _ _

end Verif.Vod
