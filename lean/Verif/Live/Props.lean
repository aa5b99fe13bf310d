import Verif.Live.Run

/-!
# Properties of the pages of a live track (C69)
-/
namespace Verif.Live
open Verif.Index (Tab sub64 sub64_eq Track Fits)
open Verif.Page (Pack packLen)
open Spec

/-! ## The keys of a stream -/

theorem add_flat (v : Bool) (ks : List (List Pack)) (p : Pack) :
    ((add v ks p).flatten = ks.flatten ∧ (ks = [] ∨ p.time < lastTime ks)) ∨ ∃ k, (add v ks p).flatten = ks.flatten ++ [{ p with key := k }] := by
  unfold add
  split
  · rename_i h; exact .inl ⟨rfl, .inr h⟩
  · split
    · rename_i h
      rw [List.getLast?_eq_none_iff] at h; subst h
      split
      · exact .inl ⟨rfl, .inl rfl⟩
      · exact .inr ⟨true, by simp⟩
    · rename_i g h
      obtain ⟨K, rfl⟩ : ∃ K, ks = K ++ [g] := by
        obtain ⟨K, hK⟩ := List.getLast?_eq_some_iff.mp h; exact ⟨K, hK⟩
      split
      · exact .inr ⟨true, by simp⟩
      · exact .inr ⟨false, by simp⟩

theorem fold_flat (v : Bool) (ps : List Pack) (ks : List (List Pack)) : ∃ x, (ps.foldl (add v) ks).flatten = ks.flatten ++ x ∧ x.length ≤ ps.length := by
  induction ps generalizing ks with
  | nil => exact ⟨[], by simp, by simp⟩
  | cons p r ih =>
    obtain ⟨x, hx, hl⟩ := ih (add v ks p)
    rw [List.foldl_cons, hx]
    rcases add_flat v ks p with ⟨h, -⟩ | ⟨k, h⟩
    · exact ⟨x, by rw [h], by simp; omega⟩
    · exact ⟨{ p with key := k } :: x, by rw [h]; simp, by simp; omega⟩

theorem add_bytes (v : Bool) (ks : List (List Pack)) (p : Pack) : ∀ g ∈ ks, ∃ g' ∈ add v ks p, bytes g ≤ bytes g' := by
  intro g hg
  unfold add
  split
  · exact ⟨g, hg, Nat.le_refl _⟩
  · split
    · rename_i h
      rw [List.getLast?_eq_none_iff] at h; subst h; simp at hg
    · rename_i y h
      obtain ⟨K, rfl⟩ : ∃ K, ks = K ++ [y] := by
        obtain ⟨K, hK⟩ := List.getLast?_eq_some_iff.mp h; exact ⟨K, hK⟩
      split
      · exact ⟨g, by simp at hg ⊢; rcases hg with hg | hg <;> simp [hg], Nat.le_refl _⟩
      · rw [List.dropLast_concat]
        rcases List.mem_append.mp hg with hg | hg
        · exact ⟨g, by simp [hg], Nat.le_refl _⟩
        · simp at hg; subst hg
          refine ⟨_, List.mem_append_right _ (List.mem_singleton.mpr rfl), ?_⟩
          rw [bytes_append]; omega

theorem fold_bytes (v : Bool) (ps : List Pack) (ks : List (List Pack)) {lim : Nat} (h : ∀ g ∈ ps.foldl (add v) ks, bytes g ≤ lim) :
    ∀ g ∈ ks, bytes g ≤ lim := by
  induction ps generalizing ks with
  | nil => exact h
  | cons p r ih =>
    intro g hg
    obtain ⟨g', hg', hle⟩ := add_bytes v ks p g hg
    have := ih (add v ks p) h g' hg'
    omega

theorem fold_turns (v : Bool) (ps : List Pack) (ks : List (List Pack)) (h : Turns ks.flatten) : Turns (ps.foldl (add v) ks).flatten := by
  obtain ⟨x, hx, -⟩ := fold_flat v ps ks
  obtain ⟨q, hq, p, hp, h1, h2⟩ := h
  rw [hx]
  exact ⟨q, by simp only [List.mem_append]; exact .inl hq, p, by simp only [List.mem_append]; exact .inl hp, h1, h2⟩

/-- The number of removals that a history asks for. -/
def removals : List Op → Nat
  | [] => 0
  | .packet _ :: r => removals r
  | .remove :: r => removals r + 1

theorem run_step (ops : List Op) (l : Live) (ks : List (List Pack)) (G : List (List (List Pack))) (fs : List (List Index.Group)) (d e m : Nat) (h : LInv l ks G fs d e m)
    (hfit : ∀ p ∈ packets ops, Fits (entry p)) (hclose : Index.Close (((packets ops).foldl (add l.track.video) ks).flatten.map entry))
    (hlen : ks.flatten.length + (packets ops).length + 2 < 2 ^ 32) (hbig : ∀ g ∈ (packets ops).foldl (add l.track.video) ks, bytes g ≤ pageSize - flipSize) :
    (∃ l' G' fs' d' e' m', run l ops = some l' ∧ LInv l' ((packets ops).foldl (add l.track.video) ks) G' fs' d' e' m' ∧ d' ≤ d + removals ops ∧
      l'.track.video = l.track.video ∧ l'.track.minFrag = l.track.minFrag) ∨
    (run l ops = none ∧ Turns ((packets ops).foldl (add l.track.video) ks).flatten) := by
  induction ops generalizing l ks G fs d e m with
  | nil => exact .inl ⟨l, G, fs, d, e, m, rfl, h, by simp [removals], rfl, rfl⟩
  | cons o r ih =>
    cases o with
    | remove =>
      simp only [packets] at hfit hclose hlen hbig ⊢
      simp only [run, step]
      split
      · rename_i h2
        rw [h.track.frags.fin, h.track.frags.del] at h2
        obtain ⟨l', e', m', er, hi, hv, hm⟩ := remove_step h (by omega) (by omega)
        rw [er]
        rw [← hv] at hclose hbig ⊢
        rw [← hm]
        rcases ih l' ks G fs _ _ _ hi hfit hclose hlen hbig with ⟨l'', G', fs', d', e', m', er', hi', hd', hv', hm'⟩ | hn
        · exact .inl ⟨l'', G', fs', d', e', m', er', hi', by simp only [removals]; omega, hv', hm'⟩
        · exact .inr hn
      · rcases ih l ks G fs _ _ _ h hfit hclose hlen hbig with ⟨l'', G', fs', d', e', m', er', hi', hd', hv', hm'⟩ | hn
        · exact .inl ⟨l'', G', fs', d', e', m', er', hi', by simp only [removals]; omega, hv', hm'⟩
        · exact .inr hn
    | packet p =>
      simp only [packets, List.foldl_cons, List.length_cons] at hfit hclose hlen hbig ⊢
      simp only [run, step]
      have hgap : ks ≠ [] → p.time - lastTime ks < 2 ^ 16 := by
        intro hne
        rcases add_flat l.track.video ks p with ⟨-, hz | hz⟩ | ⟨k, hk⟩
        · exact absurd hz hne
        · omega
        · obtain ⟨x, hx, -⟩ := fold_flat l.track.video (packets r) (add l.track.video ks p)
          rw [hx, hk] at hclose
          simp only [List.map_append, List.map_cons, List.map_nil, List.append_assoc, List.singleton_append] at hclose
          have hkk : ks.flatten.map entry ≠ [] := by
            obtain ⟨g, gs, rfl⟩ : ∃ g r, ks = g :: r := ⟨_, _, (List.cons_head_tail hne).symm⟩
            have hg := h.track.grouped.keys (g.map entry) (by rw [h.keys]; simp)
            obtain ⟨y, ys, rfl⟩ : ∃ p r, g = p :: r := ⟨_, _, (List.cons_head_tail (by intro hz; rw [hz] at hg; exact hg rfl)).symm⟩
            simp
          have := Index.close_mid hclose hkk
          rw [last_entries] at this
          exact this
      rcases buffer_step h (hfit p (by simp)) hgap (by omega) (fold_bytes _ _ _ hbig) with ⟨l', G', fs', er, hi, hv, hm⟩ | ⟨er, ht⟩
      · rw [er]
        rw [← hv] at hclose hbig hi ⊢
        rw [← hm]
        refine ih l' _ G' fs' _ _ _ hi (fun q hq => hfit q (List.mem_cons_of_mem _ hq)) hclose ?_ hbig
        rcases add_flat l'.track.video ks p with ⟨hz, -⟩ | ⟨k, hk⟩
        · rw [hz]; omega
        · rw [hk, List.length_append, List.length_singleton]; omega
      · rw [er]
        exact .inr ⟨rfl, fold_turns _ _ _ ht⟩

/-! ## Finding the page of a key -/

theorem page_at {G : List (List (List Pack))} (n k : Nat) (hn : n ≤ G.length) (hk : k < startOf G n) :
    ∃ i, i < n ∧ startOf G i ≤ k ∧ k < startOf G (i + 1) := by
  induction n with
  | zero => simp [startOf] at hk
  | succ n ih =>
    by_cases h : k < startOf G n
    · obtain ⟨i, h1, h2, h3⟩ := ih (by omega) h
      exact ⟨i, by omega, h2, h3⟩
    · exact ⟨n, by omega, by omega, hk⟩

theorem page_keys {G : List (List (List Pack))} {i : Nat} {b : List (List Pack)} (h : G[i]? = some b) :
    (G.flatten.drop (startOf G i)).take b.length = b := by
  have hi : i < G.length := by rw [List.getElem?_eq_some_iff] at h; exact h.1
  have hb : G[i] = b := by rw [List.getElem?_eq_some_iff] at h; exact h.2
  have e : G.flatten = (G.take i).flatten ++ (b ++ (G.drop (i + 1)).flatten) := by
    rw [← hb]
    conv => lhs; rw [← List.take_append_drop i G]
    rw [List.flatten_append, List.drop_eq_getElem_cons hi, List.flatten_cons]
  rw [e]
  unfold startOf
  rw [List.drop_left, List.take_left]

theorem key_loop (t : Tab Rec) (key k j res i : Nat) (h1 : j ≤ i) (h2 : i < j + k) (ha : ∀ x, j ≤ x → x ≤ i → (t.get x).avail ≠ 0 ∧ (t.get x).firstKey ≤ key)
    (hn : i + 1 < j + k → (t.get (i + 1)).avail ≠ 0 ∧ key < (t.get (i + 1)).firstKey) : keyLoop t key k j res = i := by
  induction k generalizing j res with
  | zero => omega
  | succ k ih =>
    unfold keyLoop
    rw [if_neg (ha j (Nat.le_refl _) h1).1, if_neg (by have := (ha j (Nat.le_refl _) h1).2; omega)]
    by_cases e : j = i
    · subst e
      cases k with
      | zero => rfl
      | succ k =>
        unfold keyLoop
        have := hn (by omega)
        rw [if_neg this.1, if_pos this.2]
    · exact ih (j + 1) j (by omega) (by omega) (fun x hx hx' => ha x (by omega) hx') fun hx => hn (by omega)

theorem time_loop (t : Tab Rec) (time k j res i : Nat) (h1 : j ≤ i) (h2 : i < j + k) (ha : ∀ x, j ≤ x → x ≤ i → (t.get x).avail ≠ 0 ∧ (t.get x).firstTime ≤ time)
    (hn : i + 1 < j + k → (t.get (i + 1)).avail ≠ 0 ∧ time < (t.get (i + 1)).firstTime) :
    timeLoop t time k j res = (i, if i + 1 < j + k then some (t.get (i + 1)).firstKey else none) := by
  induction k generalizing j res with
  | zero => omega
  | succ k ih =>
    unfold timeLoop
    rw [if_neg (ha j (Nat.le_refl _) h1).1, if_neg (by have := (ha j (Nat.le_refl _) h1).2; omega)]
    by_cases e : j = i
    · subst e
      cases k with
      | zero => rw [if_neg (by omega)]; rfl
      | succ k =>
        unfold timeLoop
        have := hn (by omega)
        rw [if_neg this.1, if_pos this.2, if_pos (by omega)]
    · rw [ih (j + 1) j (by omega) (by omega) (fun x hx hx' => ha x (by omega) hx') fun hx => hn (by omega)]
      rw [show j + 1 + k = j + (k + 1) by omega]

theorem num_loop (t : Tab Rec) (key k j i : Nat) (h1 : j ≤ i) (h2 : i < j + k)
    (hb : ∀ x, j ≤ x → x < i → 0 < (t.get x).keyCount ∧ (t.get x).firstKey + (t.get x).keyCount ≤ key)
    (hi : (t.get i).firstKey ≤ key ∧ key < (t.get i).firstKey + (t.get i).keyCount ∧ (t.get i).avail ≠ 0)
    (hs : ∀ x, j ≤ x → x ≤ i → (t.get x).firstKey + (t.get x).keyCount < 2 ^ 64) : numLoop t key k j = some (t.get i).firstKey := by
  induction k generalizing j with
  | zero => omega
  | succ k ih =>
    unfold numLoop
    dsimp only
    by_cases e : j = i
    · subst e
      rw [if_neg (by omega), sub64_eq (by omega) (hs j (Nat.le_refl _) (Nat.le_refl _)), if_neg (by omega), if_neg hi.2.2]
    · have := hb j (Nat.le_refl _) (by omega)
      rw [if_neg (by omega), sub64_eq (by omega) (hs j (Nat.le_refl _) (by omega)), if_pos (by omega)]
      exact ih (j + 1) (by omega) (by omega) (fun x hx hx' => hb x (by omega) hx') fun x hx hx' => hs x (by omega) hx'

theorem next_loop (t : Tab Rec) (num k j i : Nat) (h1 : j ≤ i) (h2 : i < j + k) (hf : t.fin = j + k) (hi : (t.get i).firstKey = num)
    (hj : ∀ x, j ≤ x → x < i → (t.get x).firstKey ≠ num) (ha : i + 1 < t.fin → (t.get (i + 1)).avail ≠ 0) :
    nextLoop t num k j = decide (i + 1 < t.fin) := by
  induction k generalizing j with
  | zero => omega
  | succ k ih =>
    unfold nextLoop
    by_cases e : j = i
    · subst e
      by_cases hlt : j + 1 < t.fin
      · rw [if_pos hlt, if_pos hi]
        simp [hlt, ha hlt]
      · rw [if_neg hlt]; simp [hlt]
    · rw [if_pos (by omega), if_neg (hj j (Nat.le_refl _) (by omega))]
      exact ih (j + 1) (by omega) (by omega) (by omega) fun x hx hx' => hj x (by omega) hx'

theorem keys_mono {t fs d e} (h : Index.Inv t fs d e) {ks : List (List Pack)} (hk : fs.flatten = ks.map (·.map entry)) {i j : Nat} {g g' : List Pack}
    (hg : ks[i]? = some g) (hg' : ks[j]? = some g') (hij : i ≤ j) : keyTime g ≤ keyTime g' := by
  rcases Nat.lt_or_eq_of_le hij with hlt | rfl
  · have ht := h.grouped.times
    have hks : ks = ks.take i ++ (g :: ks.drop (i + 1)) := by
      have hi : i < ks.length := by rw [List.getElem?_eq_some_iff] at hg; exact hg.1
      have hgi : ks[i] = g := by rw [List.getElem?_eq_some_iff] at hg; exact hg.2
      conv => lhs; rw [← List.take_append_drop i ks, List.drop_eq_getElem_cons hi, hgi]
    have hmem : g' ∈ ks.drop (i + 1) := by
      rw [List.mem_iff_getElem?]
      exact ⟨j - (i + 1), by rw [List.getElem?_drop, show i + 1 + (j - (i + 1)) = j by omega]; exact hg'⟩
    have hne : g ≠ [] := by
      have := h.grouped.keys (g.map entry) (by rw [hk]; exact List.mem_map.mpr ⟨g, List.mem_of_getElem? hg, rfl⟩)
      intro hz; rw [hz] at this; exact this rfl
    have hne' : g' ≠ [] := by
      have := h.grouped.keys (g'.map entry) (by rw [hk]; exact List.mem_map.mpr ⟨g', List.mem_of_getElem? hg', rfl⟩)
      intro hz; rw [hz] at this; exact this rfl
    obtain ⟨q, r, rfl⟩ : ∃ p r, g = p :: r := ⟨_, _, (List.cons_head_tail hne).symm⟩
    obtain ⟨q', r', rfl⟩ : ∃ p r, g' = p :: r := ⟨_, _, (List.cons_head_tail hne').symm⟩
    rw [entries_flat hk, hks, List.flatten_append, List.map_append, List.map_append, List.pairwise_append] at ht
    have := ht.2.1
    simp only [List.flatten_cons, List.cons_append, List.map_cons, List.pairwise_cons] at this
    exact this.1 q'.time (by
      rw [List.map_append, List.map_append]
      refine List.mem_append_right _ ?_
      rw [List.map_map, List.mem_map]
      exact ⟨q', List.mem_flatten.mpr ⟨_, hmem, by simp⟩, rfl⟩)
  · rw [hg] at hg'; cases hg'; exact Nat.le_refl _

theorem serves {l : Live} {ks : List (List Pack)} {G : List (List (List Pack))} {fs : List (List Index.Group)} {d e m : Nat} (h : LInv l ks G fs d e m)
    (hs : ks.flatten.length + 2 < 2 ^ 32) : Serves l ks d := by
  have hkl : ks.length ≤ ks.flatten.length := by
    have := Index.flatten_le h.track.grouped.keys
    rwa [h.keys, ← List.map_flatten, List.length_map, List.length_map] at this
  have hfin := h.pages.fin; have hdel := h.pages.del; have hstart := h.pages.start
  have hfl := h.flat
  have hav : ∀ i, m ≤ i → i < G.length → (l.pages.get i).avail ≠ 0 := by
    intro i h1 h2
    rw [(h.pages.recs i _ h1 (List.getElem?_eq_getElem h2)).avail]
    have := bytes_pos (h.pages.ne _ (List.getElem_mem h2)) (h.pages.nek _ (List.getElem_mem h2))
    omega
  have hfk : ∀ i, m ≤ i → i < G.length → (l.pages.get i).firstKey = startOf G i := fun i h1 h2 =>
    (h.pages.recs i _ h1 (List.getElem?_eq_getElem h2)).firstKey
  have hkc : ∀ i, m ≤ i → i < G.length → (l.pages.get i).firstKey + (l.pages.get i).keyCount = startOf G (i + 1) ∧ 0 < (l.pages.get i).keyCount := by
    intro i h1 h2
    have hr := h.pages.recs i _ h1 (List.getElem?_eq_getElem h2)
    rw [hr.firstKey, hr.keyCount, startOf_succ (List.getElem?_eq_getElem h2)]
    exact ⟨rfl, List.length_pos_iff.mpr (h.pages.ne _ (List.getElem_mem h2))⟩
  have htot : startOf G G.length = ks.length := by rw [← hfl]; unfold startOf; rw [List.take_length]
  -- the page of a key
  have loc : ∀ k, d ≤ k → k < ks.length → ∃ i, m ≤ i ∧ i < G.length ∧ startOf G i ≤ k ∧ k < startOf G (i + 1) := by
    intro k h1 h2
    obtain ⟨i, h3, h4, h5⟩ := page_at G.length k (Nat.le_refl _) (by omega)
    refine ⟨i, ?_, h3, h4, h5⟩
    refine Nat.le_of_not_lt fun hlt => ?_
    have := startOf_mono G (show i + 1 ≤ m by omega)
    have := h.lo
    omega
  have holds : ∀ i (_ : m ≤ i) (h2 : i < G.length), Holds l ks (startOf G i) G[i].length := by
    intro i h1 h2
    unfold Holds
    rw [h.pages.data i _ h1 (List.getElem?_eq_getElem h2), ← hfl, page_keys (List.getElem?_eq_getElem h2)]
  have ends : ∀ i (_ : i < G.length), startOf G i + G[i].length = startOf G (i + 1) := fun i h2 => (startOf_succ (List.getElem?_eq_getElem h2)).symm
  have more : ∀ i, i < G.length → (startOf G (i + 1) < ks.length ↔ i + 1 < G.length) := by
    intro i h2
    constructor
    · intro hlt
      refine Nat.lt_of_not_le fun hge => ?_
      have : i + 1 = G.length := by omega
      rw [this] at hlt; omega
    · intro hlt
      rw [← htot]; exact startOf_lt h.pages.ne hlt hlt
  have forKey : ∀ i k, m ≤ i → i < G.length → startOf G i ≤ k → k < startOf G (i + 1) → pageForKey l k = startOf G i := by
    intro i k h1 h2 h3 h4
    unfold pageForKey
    rw [key_loop (i := i)]
    · exact hfk i h1 h2
    · omega
    · omega
    · intro x hx hx'
      refine ⟨hav x (by omega) (by omega), ?_⟩
      rw [hfk x (by omega) (by omega)]
      have := startOf_mono G hx'
      omega
    · intro hlt
      rw [hfk (i + 1) (by omega) (by omega)]
      exact ⟨hav (i + 1) (by omega) (by omega), h4⟩
  refine ⟨?_, ?_⟩
  · intro k hd hk
    obtain ⟨i, h1, h2, h3, h4⟩ := loc k hd hk
    have hle : startOf G (i + 1) ≤ ks.length := by rw [← hfl]; exact startOf_le G _
    refine ⟨startOf G i, G[i].length, h3, by rw [ends i h2]; exact h4, by rw [ends i h2]; exact hle, holds i h1 h2, forKey i k h1 h2 h3 h4, ?_, ?_, ?_⟩
    · unfold pageNumForKey
      rw [num_loop (i := i), hfk i h1 h2]
      · omega
      · omega
      · intro x hx hx'
        obtain ⟨e1, e2⟩ := hkc x (by omega) (by omega)
        have := startOf_mono G (show x + 1 ≤ i by omega)
        exact ⟨e2, by omega⟩
      · obtain ⟨e1, e2⟩ := hkc i h1 h2
        rw [e1, hfk i h1 h2]
        exact ⟨h3, h4, hav i h1 h2⟩
      · intro x hx hx'
        rw [(hkc x (by omega) (by omega)).1]
        have := startOf_le G (x + 1)
        rw [hfl] at this
        omega
    · unfold nextPageAvailable
      rw [next_loop (i := i), ends i h2, more i h2, hfin]
      · simp
      · omega
      · omega
      · omega
      · exact hfk i h1 h2
      · intro x hx hx'
        rw [hfk x (by omega) (by omega)]
        have := startOf_lt h.pages.ne hx' (by omega)
        omega
      · intro hlt
        exact hav (i + 1) (by omega) (by omega)
    · rw [ends i h2]
      intro hlt
      have h5 := (more i h2).mp hlt
      exact forKey (i + 1) _ (by omega) h5 (Nat.le_refl _) (startOf_lt h.pages.ne (by omega) h5)
  · intro k g t hd hg ht hnext
    have hk : k < ks.length := by rw [List.getElem?_eq_some_iff] at hg; exact hg.1
    obtain ⟨i, h1, h2, h3, h4⟩ := loc k hd hk
    refine ⟨startOf G i, G[i].length, h3, by rw [ends i h2]; exact h4, holds i h1 h2, ?_⟩
    -- the first key of a page
    have hfirst : ∀ x, m ≤ x → x < G.length → ∃ g', ks[startOf G x]? = some g' ∧ (l.pages.get x).firstTime = keyTime g' := by
      intro x hx hx'
      have hb := h.pages.ne _ (List.getElem_mem hx')
      have hr := h.pages.recs x _ hx (List.getElem?_eq_getElem hx')
      have hlen : 0 < G[x].length := List.length_pos_iff.mpr hb
      refine ⟨G[x][0], ?_, ?_⟩
      · have := page_keys (List.getElem?_eq_getElem hx')
        rw [hfl] at this
        have e0 := congrArg (fun y => y[0]?) this
        rw [List.getElem?_take_of_lt hlen, List.getElem?_drop, Nat.add_zero, List.getElem?_eq_getElem hlen] at e0
        exact e0
      · rw [hr.firstTime, List.head?_eq_getElem?, List.getElem?_eq_getElem hlen]; rfl
    unfold pagesForTime
    rw [time_loop (i := i)]
    · dsimp only
      rw [hfk i h1 h2, ends i h2, show l.pages.start + (l.pages.fin - l.pages.start) = G.length by omega]
      by_cases hx : i + 1 < G.length
      · rw [if_pos hx, if_pos ((more i h2).mpr hx), hfk (i + 1) (by omega) hx]
      · rw [if_neg hx, if_neg (fun hy => hx ((more i h2).mp hy))]
    · omega
    · omega
    · intro x hx hx'
      refine ⟨hav x (by omega) (by omega), ?_⟩
      obtain ⟨g', hg', e⟩ := hfirst x (by omega) (by omega)
      rw [e]
      have := startOf_mono G hx'
      exact Nat.le_trans (keys_mono h.track h.keys hg' hg (by omega)) ht
    · intro hlt
      have hlt' : i + 1 < G.length := by omega
      refine ⟨hav (i + 1) (by omega) hlt', ?_⟩
      obtain ⟨g', hg', e⟩ := hfirst (i + 1) (by omega) hlt'
      rw [e]
      have hk1 : k + 1 < ks.length := by
        rw [List.getElem?_eq_some_iff] at hg'
        have := hg'.1
        omega
      have := hnext ks[k + 1] (List.getElem?_eq_getElem hk1)
      have := keys_mono h.track h.keys (List.getElem?_eq_getElem hk1) hg' (by omega)
      omega

/-! ## Theorems -/

/-- What the packets of a stream must be like: their fields fit, they follow one another by less than 65536 milliseconds,
there are less than 2^32 of them, and no key is larger than what a page has left when it is not yet left (32 MB). -/
structure Moderate (video : Bool) (ps : List Pack) : Prop where
  fits : ∀ p ∈ ps, Fits (entry p)
  close : Index.Close ((keysOf video ps).flatten.map entry)
  count : ps.length + 2 < 2 ^ 32
  keys : ∀ g ∈ keysOf video ps, bytes g ≤ 32 * 1024 * 1024

theorem new_inv (video : Bool) (setting : Nat) {np nk nf ng : Nat} (hp : 0 < np) (hk : 0 < nk) (hf : 0 < nf) (hg : 0 < ng) :
    LInv (new (Index.newTrack video setting np nk nf) ng) [] [] [] 0 0 0 := by
  refine ⟨Index.inv_new video setting hp hk hf, rfl, rfl, ⟨Index.ok_new hg _, rfl, rfl, rfl, by simp, by simp, by simp, by simp, by simp, by simp, fun _ => rfl, by simp, by simp⟩,
    by simp [startOf], by simp⟩

/-- Whatever packets arrive and however many keys are removed from the front in between: the index describes exactly the
keys of the stream without some at the front, no more than were asked to be removed and not all; and for each of them the pages
can be found by number and by time and hold its packets. Missing, because the code does not have it: keys of more than 32 MB
(`C69_big_key_fails`), and what C30 misses: packets more than 65535 milliseconds apart or a multiple of 2^32 milliseconds apart. -/
theorem C69_live_pages_partial (video : Bool) (setting : Nat) {np nk nf ng : Nat} (hp : 0 < np) (hk : 0 < nk) (hf : 0 < nf) (hg : 0 < ng) (ops : List Op)
    (hm : Moderate video (packets ops)) (ht : ¬ Turns (keysOf video (packets ops)).flatten) :
    ∃ l fs d e, run (new (Index.newTrack video setting np nk nf) ng) ops = some l ∧ Index.Shows l.track fs d e ∧
      fs.flatten = (keysOf video (packets ops)).map (·.map entry) ∧ d ≤ removals ops ∧
      (keysOf video (packets ops) ≠ [] → d < (keysOf video (packets ops)).length) ∧ Serves l (keysOf video (packets ops)) d := by
  have hlim : pageSize - flipSize = 32 * 1024 * 1024 := by decide
  rcases run_step ops _ [] [] [] 0 0 0 (new_inv video setting hp hk hf hg) hm.fits hm.close (by have := hm.count; simp; omega)
    (by rw [hlim]; exact hm.keys) with ⟨l, G, fs, d, e, m, er, hi, hd, -, -⟩ | ⟨-, h⟩
  · refine ⟨l, fs, d, e, er, hi.track.shows, hi.keys, by simpa using hd, ?_, serves hi ?_⟩
    · intro hne
      have hG : G ≠ [] := by
        intro hz
        have := hi.flat
        rw [hz] at this
        exact hne this.symm
      have h1 := hi.hi hG
      have h2 := startOf_le G (m + 1)
      rw [hi.flat] at h2
      exact Nat.lt_of_lt_of_le h1 h2
    · obtain ⟨x, hx, hl⟩ := fold_flat video (packets ops) []
      have := hm.count
      show (List.foldl (add video) [] (packets ops)).flatten.length + 2 < 2 ^ 32
      rw [hx]; simp; omega
  · exact absurd h ht

/-- A packet, for examples. -/
def pk (time : Nat) (key : Bool := false) : Pack := ⟨time, 0, 1, [1, 2, 3], 0, key⟩

/-- Video with a packet before the first key, one packet too late, and keys that are far enough apart for three pages; two
removals. -/
def sample : List Op :=
  [.packet (pk 0), .packet (pk 10 true), .packet (pk 40), .packet (pk 20), .packet (pk 5000 true), .packet (pk 40000), .packet (pk 70000 true),
   .remove, .packet (pk 100000), .packet (pk 140000 true), .packet (pk 140040), .remove, .packet (pk 140080 true)]

/-- The hypotheses hold of the sample, with tables that have to grow, and it fills three pages, of which one is removed. -/
example : Moderate true (packets sample) ∧ ¬ Turns (keysOf true (packets sample)).flatten ∧ (keysOf true (packets sample)).length = 5 ∧
    ((run (new (Index.newTrack true 0 1 1 1) 1) sample).map fun l => ([l.track.keys.del, l.pages.del, l.pages.fin, pageForKey l 2, pageForKey l 4],
      pagesForTime l 100000, (l.data 0).isSome)) = some ([2, 1, 3, 2, 3], (2, some 3), false) := by
  refine ⟨⟨?_, ?_, by decide, ?_⟩, ?_, by decide +kernel, by decide +kernel⟩
  · simp [sample, packets, pk, Fits, entry]
  · simp [keysOf, sample, packets, pk, add, lastTime, starts, Index.Close, entry]
  · decide +kernel
  · simp [Turns, keysOf, sample, packets, pk, add, lastTime, starts]

/-- The same for a track that is not video: it is cut every 2047 milliseconds. -/
def sampleAudio : List Op :=
  [.packet (pk 0), .packet (pk 1000), .packet (pk 2046), .packet (pk 2047), .packet (pk 4000), .packet (pk 5000), .remove, .packet (pk 65000),
   .packet (pk 68000)]

example : Moderate false (packets sampleAudio) ∧ ¬ Turns (keysOf false (packets sampleAudio)).flatten ∧
    (keysOf false (packets sampleAudio)).map (·.map Pack.time) = [[0, 1000, 2046], [2047, 4000], [5000], [65000], [68000]] ∧
    ((run (new (Index.newTrack false 0 1 1 1) 1) sampleAudio).map fun l => (l.pages.fin, pageForKey l 2, pageForKey l 4)) = some (2, 0, 3) := by
  refine ⟨⟨?_, ?_, by decide, ?_⟩, ?_, by decide +kernel, by decide +kernel⟩
  · simp [sampleAudio, packets, pk, Fits, entry]
  · simp [keysOf, sampleAudio, packets, pk, add, lastTime, starts, keyTime, Index.Close, entry]
  · decide +kernel
  · simp [Turns, keysOf, sampleAudio, packets, pk, add, lastTime, starts, keyTime]

theorem next_big {l : Live} {num i : Nat} {p : Pack} (hi : findPage l.pages num = some i)
    (hbig : ((l.pages.get i).size + 2 ^ 64 - (l.pages.get i).avail) % 2 ^ 64 < packLen p) : bufferNext l num p = l := by
  unfold bufferNext
  simp only [hi, Option.getD_some, hbig, if_true]

theorem put_big {l : Live} {num : Nat} {p : Pack} (hc : l.cur = some num) (hd : l.data num ≠ none) (hb : bufferNext l num p = l) :
    putPacket l p = (Index.update l.track (entry p)).map fun t => { l with track := t } := by
  unfold putPacket
  simp only [hc, hd, hb, if_false]

theorem buffer_key {l : Live} {p : Pack} (hk : isKey l p = true) (ht : l.track.lastms ≤ p.time) (hs : (startKey l p.time).2 = true) :
    buffer l p = putPacket (startKey l p.time).1 { p with key := true } := by
  unfold buffer
  rw [hk]
  dsimp only
  rw [if_neg (Nat.not_lt.mpr ht), if_pos rfl, if_pos hs]

theorem opened_ok : (startKey (new (Index.newTrack true 0 8 8 8) 8) 0).2 = true := by decide +kernel

/-- The track of the next theorem before the packet is put on its page. -/
def opened : Live := (startKey (new (Index.newTrack true 0 8 8 8) 8) 0).1

/-- **C69** fails for keys that are larger than a page: such a key gets into the index, but its packet is on no page, and
viewers that want it wait for ever. -/
theorem C69_big_key_fails (data : Bytes) (h : data.length = 41943040) :
    ∃ l, run (new (Index.newTrack true 0 8 8 8) 8) [.packet ⟨0, 0, 1, data, 0, true⟩] = some l ∧
      l.track.keys.fin - l.track.keys.del = 1 ∧ l.data 0 = some [] ∧ pageNumForKey l 0 = none := by
  have e : buffer (new (Index.newTrack true 0 8 8 8) 8) ⟨0, 0, 1, data, 0, true⟩ = putPacket opened ⟨0, 0, 1, data, 0, true⟩ :=
    buffer_key (p := ⟨0, 0, 1, data, 0, true⟩) rfl (Nat.zero_le _) opened_ok
  have ht : opened.track = Index.newTrack true 0 8 8 8 := by unfold opened startKey; rfl
  have hlen : packLen ⟨0, 0, 1, data, 0, true⟩ = 54 + data.length := by
    unfold packLen Dtsc.sendSize
    simp
    omega
  have hroom : ((opened.pages.get 0).size + 2 ^ 64 - (opened.pages.get 0).avail) % 2 ^ 64 = 41943040 := by decide +kernel
  have hlt : ((opened.pages.get 0).size + 2 ^ 64 - (opened.pages.get 0).avail) % 2 ^ 64 < packLen ⟨0, 0, 1, data, 0, true⟩ := by
    generalize ((opened.pages.get 0).size + 2 ^ 64 - (opened.pages.get 0).avail) % 2 ^ 64 = x at hroom ⊢
    generalize packLen ⟨0, 0, 1, data, 0, true⟩ = y at hlen ⊢
    omega
  have hn : pageNumForKey opened 0 = none := by decide +kernel
  have hd : opened.data 0 = some [] := rfl
  have hfit : Fits (entry ⟨0, 0, 1, data, 0, true⟩) := by
    unfold Fits entry
    dsimp only
    omega
  have hinv : Index.Inv (Index.newTrack true 0 8 8 8) [] 0 0 := Index.inv_new true 0 (by decide) (by decide) (by decide)
  have hput := put_big (l := opened) (num := 0) (p := ⟨0, 0, 1, data, 0, true⟩) (by decide +kernel) (by rw [hd]; simp)
    (next_big (i := 0) (by decide +kernel) hlt)
  rw [ht] at hput
  rcases Index.step_packet (p := entry ⟨0, 0, 1, data, 0, true⟩) hinv (Nat.zero_le _) hfit
    (fun hf => absurd rfl hf) (by simp) with ⟨t', fs', er, hi, hfs, hv, -⟩ | ⟨-, f, hf, -⟩
  · have h1 := (keys_step hinv hi hv hfs).1 rfl
    refine ⟨{ opened with track := t' }, ?_, ?_, hd, hn⟩
    · unfold run step
      dsimp only
      rw [e, hput, er]
      rfl
    · dsimp only
      rw [hi.keys.fin, hi.keys.del, h1]
      rfl
  · simp at hf

end Verif.Live
