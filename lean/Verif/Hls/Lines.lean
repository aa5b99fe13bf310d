import Verif.Hls.Lemmas
import Verif.Index.Seek

/-! # What is listed -/
namespace Verif.Hls
open Verif.Index

/-- The index of a stream that is cut at `S` and whose first `e` fragments have been removed. -/
structure Facts (t : Track) (S : List Nat) (e : Nat) : Prop where
  left : e < S.length
  del : t.frags.del = e
  fin : t.frags.fin = S.length
  start : ∀ i, e ≤ i → i < S.length → (t.keys.get (t.frags.get i).firstKey).time = S.getD i 0
  dur : ∀ i, e ≤ i → i + 1 < S.length → (t.frags.get i).dur = S.getD (i + 1) 0 - S.getD i 0
  lastDur : (t.frags.get (S.length - 1)).dur = 0
  firstms : ∀ i, e ≤ i → i < S.length → t.firstms ≤ S.getD i 0
  lastms : ∀ i, i < S.length → S.getD i 0 ≤ t.lastms
  mono : ∀ i, i + 1 < S.length → S.getD i 0 < S.getD (i + 1) 0
  small : t.lastms < 2 ^ 64
  short : t.lastms - t.firstms < 2 ^ 32

theorem getD_map {fs : List (List Group)} {i : Nat} {f : List Group} (h : fs[i]? = some f) : (fs.map fragFirst).getD i 0 = fragFirst f := by
  rw [List.getD_eq_getElem?_getD, List.getElem?_map, h]; rfl

theorem frag_key {v : Bool} {m : Nat} {fs : List (List Group)} (hg : Grouped v m fs) {i : Nat} {f : List Group} (hf : fs[i]? = some f) :
    ∃ g, fs.flatten[(fs.take i).flatten.length]? = some g ∧ first g = fragFirst f := by
  obtain ⟨g, r, rfl⟩ : ∃ g r, f = g :: r := ⟨_, _, (List.cons_head_tail (hg.frags f (List.mem_of_getElem? hf))).symm⟩
  exact ⟨g, by simpa using part_at fs i _ hf 0 (by simp), rfl⟩

theorem key_packet {v : Bool} {m : Nat} {fs : List (List Group)} (hg : Grouped v m fs) {k : Nat} {g : Group} (hk : fs.flatten[k]? = some g) :
    ∃ p, fs.flatten.flatten[(fs.flatten.take k).flatten.length]? = some p ∧ p.time = first g := by
  have hne := hg.keys g (List.mem_of_getElem? hk)
  obtain ⟨p, r, rfl⟩ : ∃ p r, g = p :: r := ⟨_, _, (List.cons_head_tail hne).symm⟩
  exact ⟨p, by simpa using part_at _ k _ hk 0 (by simp), rfl⟩

theorem firsts_le {v : Bool} {m : Nat} {fs : List (List Group)} (hg : Grouped v m fs) {i j : Nat} {g g' : Group} (hi : fs.flatten[i]? = some g)
    (hj : fs.flatten[j]? = some g') (hij : i ≤ j) : first g ≤ first g' := by
  obtain ⟨p, hp, e1⟩ := key_packet hg hi
  obtain ⟨q, hq, e2⟩ := key_packet hg hj
  have hm := take_flat_mono fs.flatten hij
  rw [← e1, ← e2]
  by_cases he : (fs.flatten.take i).flatten.length = (fs.flatten.take j).flatten.length
  · rw [he, hq] at hp; cases hp; exact Nat.le_refl _
  · obtain ⟨h1, rfl⟩ := List.getElem?_eq_some_iff.mp hp
    obtain ⟨h2, rfl⟩ := List.getElem?_eq_some_iff.mp hq
    have := List.pairwise_iff_getElem.mp hg.times _ _ (by rw [List.length_map]; exact h1) (by rw [List.length_map]; exact h2) (by omega)
    simpa only [List.getElem_map] using this

/-- What the index says of a stream. -/
theorem facts {t : Track} {fs : List (List Group)} {d e : Nat} (h : Inv t fs d e) (hne : fs ≠ []) (hs : fs.flatten.flatten.length + 2 < 2 ^ 32)
    (ht : ∀ p ∈ fs.flatten.flatten, p.time < 2 ^ 64) (hsh : Short fs.flatten.flatten) : Facts t (fs.map fragFirst) e := by
  have hd := h.dlt hne
  obtain ⟨gd, hgd⟩ : ∃ g, fs.flatten[d]? = some g := ⟨_, List.getElem?_eq_getElem hd⟩
  have hlen : (fs.map fragFirst).length = fs.length := by simp
  have get : ∀ i, i < fs.length → ∃ f, fs[i]? = some f := fun i hi => ⟨_, List.getElem?_eq_getElem hi⟩
  have hpos : fs.flatten.flatten ≠ [] := by
    intro hh
    have := flatten_le h.grouped.keys
    rw [hh] at this
    simp only [List.length_nil, Nat.le_zero] at this
    omega
  have hl : t.lastms = (fs.flatten.flatten.getLast hpos).time := by
    rw [h.lastms]; unfold last; rw [List.getLast?_eq_some_getLast hpos]; rfl
  have hlm : fs.flatten.flatten.getLast hpos ∈ fs.flatten.flatten := List.getLast_mem hpos
  refine ⟨by rw [hlen]; exact h.left hne, h.frags.del, by rw [hlen]; exact h.shows.offFrags.fin, ?_, ?_, ?_, ?_, ?_, ?_, ?_, ?_⟩
  · intro i hi hil
    rw [hlen] at hil
    obtain ⟨f, hf⟩ := get i hil
    rw [getD_map hf]
    exact inv_frag_time h hs hi hf
  · intro i hi hil
    rw [hlen] at hil
    obtain ⟨f, hf⟩ := get i (by omega)
    obtain ⟨f', hf'⟩ := get (i + 1) hil
    rw [getD_map hf, getD_map hf', (h.frags.get i f hi hf).dur, Nat.mod_eq_of_lt (Short.frag h.grouped hsh i f hf)]
    unfold fragDur
    rw [hf']
  · have := h.left hne
    obtain ⟨f, hf⟩ := get (fs.length - 1) (by omega)
    rw [hlen, (h.frags.get _ f (by omega) hf).dur]
    unfold fragDur
    rw [List.getElem?_eq_none (by omega)]
    rfl
  · intro i hi hil
    rw [hlen] at hil
    obtain ⟨f, hf⟩ := get i hil
    obtain ⟨g, hg, e1⟩ := frag_key h.grouped hf
    rw [getD_map hf, ← e1, h.firstms gd hgd]
    exact firsts_le h.grouped hgd hg (Nat.le_trans h.cover (take_flat_mono fs hi))
  · intro i hil
    rw [hlen] at hil
    obtain ⟨f, hf⟩ := get i hil
    obtain ⟨g, hg, e1⟩ := frag_key h.grouped hf
    rw [getD_map hf, ← e1]
    exact key_le_last h hg
  · intro i hil
    rw [hlen] at hil
    obtain ⟨f, hf⟩ := get i (by omega)
    obtain ⟨f', hf'⟩ := get (i + 1) hil
    have := h.grouped.fragStarts i f f' hf hf'
    have := h.min
    rw [getD_map hf, getD_map hf']
    omega
  · rw [hl]; exact ht _ hlm
  · obtain ⟨p, hp, e1⟩ := key_packet h.grouped hgd
    rw [hl, h.firstms gd hgd, ← e1]
    exact hsh _ hlm _ (List.mem_of_getElem? hp)

/-- The line of the fragment that is being received. -/
def lastLine (S : List Nat) (l : Nat) : List Seg := if S.getD (S.length - 1) 0 < l then [⟨S.getD (S.length - 1) 0, l - S.getD (S.length - 1) 0⟩] else []

theorem lines_eq {t : Track} {S : List Nat} {e : Nat} (h : Facts t S e) (k i : Nat) (hi : e ≤ i) (hk : i + k + 1 = S.length) :
    lines t (k + 1) i = (List.range' i k).map (whole S) ++ lastLine S t.lastms := by
  induction k generalizing i with
  | zero =>
    have e1 : S.length - 1 = i := by omega
    have hd := h.lastDur
    rw [e1] at hd
    unfold lines
    rw [h.start i hi (by omega), hd, line_last (h.firstms i hi (by omega)) (h.lastms i (by omega)) h.small]
    unfold lastLine
    rw [e1]
    by_cases hc : S.getD i 0 < t.lastms
    · rw [if_pos hc, if_pos hc]; rfl
    · rw [if_neg hc, if_neg hc]; rfl
  | succ k ih =>
    have hw : line t (S.getD i 0) (S.getD (i + 1) 0 - S.getD i 0) = some ⟨S.getD i 0, S.getD (i + 1) 0 - S.getD i 0⟩ :=
      line_whole (h.firstms i hi (by omega)) (h.mono i (by omega)) (h.lastms (i + 1) (by omega)) h.small
    unfold lines
    rw [h.start i hi (by omega), h.dur i hi (by omega), hw, ih (i + 1) (by omega) (by omega), List.range'_succ]
    rfl

/-! ## Leaving out segments -/

theorem skipTwo_drop (b : Nat) (l : List Seg) (total k : Nat) : ∃ j, j ≤ l.length ∧ (skipTwo b l total k).1 = l.drop j ∧
    (skipTwo b l total k).2.2 = k + j ∧ (k ≤ 2 → k + j ≤ 2) ∧
    ((∀ s ∈ l, s.dur < 2 ^ 16) → total = (l.map Seg.dur).sum → total < 2 ^ 32 →
      (skipTwo b l total k).2.1 = ((l.drop j).map Seg.dur).sum ∧ (0 < j → b < ((l.drop j).map Seg.dur).sum)) := by
  induction l generalizing total k with
  | nil => exact ⟨0, by simp, rfl, rfl, fun h => h, fun _ h _ => ⟨h, fun h => absurd h (by omega)⟩⟩
  | cons s r ih =>
    unfold skipTwo
    by_cases hc : sub32 total (s.dur % 2 ^ 16) > b ∧ k < 2
    · rw [if_pos hc]
      obtain ⟨j, h1, h2, h3, h4, h5⟩ := ih (sub32 total (s.dur % 2 ^ 16)) (k + 1)
      refine ⟨j + 1, by simp; omega, by rw [h2]; simp, by rw [h3]; omega, fun _ => by have := h4 (by omega); omega, ?_⟩
      intro h6 h7 h8
      have hs := h6 s (by simp)
      simp only [List.map_cons, List.sum_cons] at h7
      rw [Nat.mod_eq_of_lt hs, sub32_le (by omega) h8, show total - s.dur = (r.map Seg.dur).sum by omega] at *
      obtain ⟨h9, h10⟩ := h5 (fun x hx => h6 x (by simp [hx])) rfl (by omega)
      rw [List.drop_succ_cons]
      refine ⟨h9, fun _ => ?_⟩
      by_cases hj : 0 < j
      · exact h10 hj
      · have : j = 0 := by omega
        subst this
        simpa using hc.1
    · rw [if_neg hc]
      exact ⟨0, by simp, rfl, rfl, fun h => h, fun _ h _ => ⟨h, fun h => absurd h (by omega)⟩⟩

theorem skipLimit_drop (n b : Nat) (l : List Seg) (total k : Nat) : ∃ j, j ≤ l.length ∧ (skipLimit n b l total k).1 = l.drop j ∧
    (skipLimit n b l total k).2.2 = k + j ∧
    ((∀ s ∈ l, s.dur < 2 ^ 16) → total = (l.map Seg.dur).sum → total < 2 ^ 32 →
      (skipLimit n b l total k).2.1 = ((l.drop j).map Seg.dur).sum ∧ (0 < j → b < ((l.drop j).map Seg.dur).sum)) := by
  induction l generalizing total k with
  | nil => exact ⟨0, by simp, rfl, rfl, fun _ h _ => ⟨h, fun h => absurd h (by omega)⟩⟩
  | cons s r ih =>
    unfold skipLimit
    by_cases hc : r.length + 1 > n ∧ sub32 total (s.dur % 2 ^ 16) > b
    · rw [if_pos hc]
      obtain ⟨j, h1, h2, h3, h5⟩ := ih (sub32 total (s.dur % 2 ^ 16)) (k + 1)
      refine ⟨j + 1, by simp; omega, by rw [h2]; simp, by rw [h3]; omega, ?_⟩
      intro h6 h7 h8
      have hs := h6 s (by simp)
      simp only [List.map_cons, List.sum_cons] at h7
      rw [Nat.mod_eq_of_lt hs, sub32_le (by omega) h8, show total - s.dur = (r.map Seg.dur).sum by omega] at *
      obtain ⟨h9, h10⟩ := h5 (fun x hx => h6 x (by simp [hx])) rfl (by omega)
      rw [List.drop_succ_cons]
      refine ⟨h9, fun _ => ?_⟩
      by_cases hj : 0 < j
      · exact h10 hj
      · have : j = 0 := by omega
        subst this
        simpa using hc.2
    · rw [if_neg hc]
      exact ⟨0, by simp, rfl, rfl, fun _ h _ => ⟨h, fun h => absurd h (by omega)⟩⟩

end Verif.Hls
