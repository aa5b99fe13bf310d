import Verif.Prog.Order
import Verif.Play.Props

/-!
# All samples are visited, in the order in which a viewer gets them
-/
namespace Verif.Prog
open Verif.Prog.Spec
open Verif.Play.Spec (sent from_ packets lastTime plays start InOrder)
open Verif.Index (Part Part.zero cut16)

/-! ## Parts -/

theorem durations_length (d : Nat) (l : List Nat) : (durations d l).length = l.length := by
  induction l generalizing d with
  | nil => rfl
  | cons a l ih =>
    cases l with
    | nil => rfl
    | cons b r => rw [durations, List.length_cons, ih]; rfl

theorem durations_get {d : Nat} {l : List Nat} {i a b : Nat} (ha : l[i]? = some a) (hb : l[i + 1]? = some b) :
    (durations d l)[i]? = some ((b - a) % 2 ^ 16) := by
  induction l generalizing d i with
  | nil => cases ha
  | cons x l ih =>
    cases l with
    | nil => simp at hb
    | cons y r =>
      rw [durations]
      cases i with
      | zero =>
        simp only [List.getElem?_cons_zero, List.getElem?_cons_succ, Option.some.injEq] at ha hb ⊢
        rw [ha, hb]
      | succ i => exact ih ha hb

theorem partsOf_length (l : List Sample) : (partsOf l).length = l.length := by
  unfold partsOf
  rw [List.length_map, List.length_zip, durations_length, List.length_map, Nat.min_self]

theorem partsOf_get {l : List Sample} {i : Nat} {s : Sample} (h : l[i]? = some s) :
    ∃ d, (durations 0 (l.map Sample.time))[i]? = some d ∧ (partsOf l)[i]? = some ⟨s.data.length % 2 ^ 32, d, cut16 s.off⟩ := by
  have hi : i < l.length := by
    by_cases hc : i < l.length
    · exact hc
    · rw [List.getElem?_eq_none (by omega)] at h; cases h
  have hd : i < (durations 0 (l.map Sample.time)).length := by rw [durations_length, List.length_map]; exact hi
  refine ⟨_, List.getElem?_eq_getElem hd, ?_⟩
  unfold partsOf
  rw [List.getElem?_map, List.getElem?_zip_eq_some (z := (s, (durations 0 (l.map Sample.time))[i]))|>.mpr ⟨h, List.getElem?_eq_getElem hd⟩]
  rfl

theorem part_get {t : Trk} {i : Nat} {s : Sample} (h : t.samples[i]? = some s) (hs : s.data.length < 2 ^ 32) : (part t i).size = s.data.length := by
  obtain ⟨d, _, hp⟩ := partsOf_get h
  unfold part
  rw [List.getD_eq_getElem?_getD, hp]
  exact Nat.mod_eq_of_lt hs

theorem part_dur {t : Trk} {i : Nat} {a b : Sample} (ha : t.samples[i]? = some a) (hb : t.samples[i + 1]? = some b)
    (hg : b.time - a.time < 2 ^ 16) : (part t i).dur = b.time - a.time := by
  obtain ⟨d, hd, hp⟩ := partsOf_get ha
  unfold part
  rw [List.getD_eq_getElem?_getD, hp]
  have := durations_get (d := 0) (l := t.samples.map Sample.time) (i := i) (a := a.time) (b := b.time) (by rw [List.getElem?_map, ha]; rfl)
    (by rw [List.getElem?_map, hb]; rfl)
  rw [this] at hd
  have hd' := Option.some.inj hd
  show d = _
  rw [← hd', Nat.mod_eq_of_lt hg]

theorem trkOf_eq {R : List Trk} (h : (R.map Trk.id).Nodup) {t : Trk} (ht : t ∈ R) : trkOf R t.id = t := by
  unfold trkOf
  induction R with
  | nil => cases ht
  | cons x R ih =>
    rw [List.map_cons, List.nodup_cons] at h
    rcases List.mem_cons.mp ht with rfl | ht
    · simp
    · have : x.id ≠ t.id := fun hx => h.1 (hx ▸ List.mem_map_of_mem ht)
      rw [List.find?_cons_of_neg (by simpa using this)]
      exact ih h.2 ht

theorem time_lt {l : List Sample} (h : l.Pairwise (fun a b => a.time < b.time)) {i j : Nat} {a b : Sample} (hij : i < j) (ha : l[i]? = some a)
    (hb : l[j]? = some b) : a.time < b.time := by
  obtain ⟨hi, rfl⟩ := List.getElem?_eq_some_iff.mp ha
  obtain ⟨hj, rfl⟩ := List.getElem?_eq_some_iff.mp hb
  exact List.pairwise_iff_getElem.mp h i j hi hj hij

/-! ## Parts of tracks -/

/-- A part is that of a packet, which is not the last one of its track. -/
def On (R : List Trk) (k : KeyPart) : Prop :=
  ∃ t ∈ R, k.track = t.id ∧ (∃ s, t.samples[k.index]? = some s ∧ s.time = k.time) ∧ k.index + 1 < t.samples.length

/-- The parts of a track from one on, without the last one. -/
def seq (t : Trk) (i : Nat) : List KeyPart := (t.samples.zipIdx.map fun x => KeyPart.mk x.1.time t.id x.2).dropLast.drop i

theorem seq_cons {t : Trk} {i : Nat} {s : Sample} (h : t.samples[i]? = some s) (hi : i + 1 < t.samples.length) :
    seq t i = ⟨s.time, t.id, i⟩ :: seq t (i + 1) := by
  unfold seq
  have hl : i < (t.samples.zipIdx.map fun x => KeyPart.mk x.1.time t.id x.2).dropLast.length := by
    rw [List.length_dropLast, List.length_map, List.length_zipIdx]; omega
  rw [List.drop_eq_getElem_cons hl]
  congr 1
  obtain ⟨h0, rfl⟩ := List.getElem?_eq_some_iff.mp h
  simp

theorem seq_end {t : Trk} {i : Nat} (hi : t.samples.length ≤ i + 1) : seq t i = [] := by
  unfold seq
  apply List.drop_eq_nil_of_le
  rw [List.length_dropLast, List.length_map, List.length_zipIdx]
  omega

theorem lastms_eq {t : Trk} {s : Sample} (h : t.samples[t.samples.length - 1]? = some s) : lastms t = s.time := by
  unfold lastms
  rw [List.getLast?_eq_getElem?, h]
  rfl

theorem next_on {R : List Trk} (h : Fine R) {t : Trk} (ht : t ∈ R) {k : KeyPart} (hk : k.track = t.id) {a b : Sample}
    (ha : t.samples[k.index]? = some a) (hak : a.time = k.time) (hb : t.samples[k.index + 1]? = some b) :
    nextPart R k = if k.index + 2 < t.samples.length then some ⟨b.time, t.id, k.index + 1⟩ else none := by
  unfold nextPart
  rw [hk, trkOf_eq h.ids ht, part_dur ha hb (h.gap t ht _ a b ha hb)]
  have hab := time_lt (h.time t ht) (Nat.lt_succ_self k.index) ha hb
  have hsum : k.time + (b.time - a.time) = b.time := by omega
  rw [hsum]
  obtain ⟨hbl, _⟩ := List.getElem?_eq_some_iff.mp hb
  have hlast := List.getElem?_eq_getElem (l := t.samples) (i := t.samples.length - 1) (by omega)
  rw [lastms_eq hlast]
  by_cases hc : k.index + 2 < t.samples.length
  · rw [if_pos (time_lt (h.time t ht) (by omega) hb hlast), if_pos hc, ← hk]
  · rw [if_neg hc, if_neg]
    have : t.samples.length - 1 = k.index + 1 := by omega
    rw [← Option.some.inj (hlast.symm.trans ((congrArg (fun i : Nat => t.samples[i]?) this).trans hb))]
    omega

theorem On.next {R : List Trk} (h : Fine R) {k : KeyPart} (hk : On R k) {t : Trk} (ht : t ∈ R) (hkt : k.track = t.id) :
    (∃ n, nextPart R k = some n ∧ On R n ∧ n.track = t.id ∧ n.index = k.index + 1 ∧ lt k n ∧ seq t k.index = k :: seq t n.index) ∨
    (nextPart R k = none ∧ seq t k.index = [k] ∧ k.index + 2 = t.samples.length) := by
  obtain ⟨t', ht', hk', ⟨a, ha, hat⟩, hi⟩ := hk
  have htt : t' = t := by
    rw [← trkOf_eq h.ids ht, ← hkt, hk', trkOf_eq h.ids ht']
  subst htt
  have hb := List.getElem?_eq_getElem (l := t'.samples) (i := k.index + 1) hi
  have hn := next_on h ht hkt ha hat hb
  have hlt := time_lt (h.time _ ht) (Nat.lt_succ_self k.index) ha hb
  have hs := seq_cons ha hi
  rw [hat] at hs
  have hkk : (⟨k.time, t'.id, k.index⟩ : KeyPart) = k := by cases k; simp only at hkt; rw [← hkt]
  rw [hkk] at hs
  by_cases hc : k.index + 2 < t'.samples.length
  · rw [if_pos hc] at hn
    exact Or.inl ⟨_, hn, ⟨t', ht, rfl, ⟨_, hb, rfl⟩, hc⟩, rfl, rfl, Or.inl (by simp only; omega), hs⟩
  · rw [if_neg hc] at hn
    rw [seq_end (i := k.index + 1) (by omega)] at hs
    exact Or.inr ⟨hn, hs, by omega⟩

/-- How many parts are left of a track. -/
def weight (R : List Trk) (k : KeyPart) : Nat := (trkOf R k.track).samples.length - 1 - k.index

/-- A set of parts, one of each of some tracks. -/
structure Set' (R : List Trk) (l : List KeyPart) : Prop where
  sorted : l.Pairwise lt
  apart : (l.map KeyPart.track).Nodup
  on : ∀ k ∈ l, On R k

theorem sum_setInsert (w : KeyPart → Nat) {n : KeyPart} {l : List KeyPart} (hn : ∀ x ∈ l, x.track ≠ n.track) :
    ((setInsert n l).map w).sum = w n + (l.map w).sum := by
  induction l with
  | nil => simp [setInsert]
  | cons y l ih =>
    unfold setInsert
    by_cases h1 : less n y = true
    · rw [if_pos h1]; simp
    · rw [if_neg h1]
      by_cases h2 : less y n = true
      · rw [if_pos h2, List.map_cons, List.sum_cons, ih fun x hx => hn x (List.mem_cons_of_mem _ hx), List.map_cons, List.sum_cons]
        omega
      · have := lt_total (fun h => h1 (less_iff.mpr h)) (fun h => h2 (less_iff.mpr h))
        exact absurd (congrArg KeyPart.track this.symm) (hn y List.mem_cons_self)

theorem Set'.step {R : List Trk} (h : Fine R) {k : KeyPart} {l : List KeyPart} (hl : Set' R (k :: l)) :
    Set' R (addNext R k l) ∧ ((addNext R k l).map (weight R)).sum + 1 = ((k :: l).map (weight R)).sum ∧
    (∀ x ∈ addNext R k l, lt k x) ∧ (∀ x, x ∈ addNext R k l ↔ nextPart R k = some x ∨ x ∈ l) := by
  have hon := hl.on k List.mem_cons_self
  obtain ⟨t, ht, hkt, _⟩ := id hon
  have hs := List.pairwise_cons.mp hl.sorted
  have ha := hl.apart
  rw [List.map_cons, List.nodup_cons] at ha
  have hw : weight R k = t.samples.length - 1 - k.index := by unfold weight; rw [hkt, trkOf_eq h.ids ht]
  rcases On.next h hon ht hkt with ⟨n, hn, hno, hnt, hni, hlt, _⟩ | ⟨hn, _, hlen⟩
  · have hne : ∀ x ∈ l, x.track ≠ n.track := fun x hx hxn => ha.1 (by rw [hkt, ← hnt, ← hxn]; exact List.mem_map_of_mem hx)
    have hwn : weight R n = t.samples.length - 1 - (k.index + 1) := by unfold weight; rw [hnt, trkOf_eq h.ids ht, hni]
    have hnl : n.index + 1 < t.samples.length := by
      obtain ⟨t', ht', hnt', _, hl'⟩ := hno
      have : t' = t := by rw [← trkOf_eq h.ids ht, ← hnt, hnt', trkOf_eq h.ids ht']
      rw [← this]; exact hl'
    unfold addNext
    rw [hn]
    refine ⟨⟨sorted_setInsert hs.2, apart_setInsert ha.2 hne, fun x hx => ?_⟩, ?_, fun x hx => ?_, fun x => ?_⟩
    · rcases mem_setInsert.mp hx with rfl | hx
      · exact hno
      · exact hl.on x (List.mem_cons_of_mem _ hx)
    · simp only
      rw [sum_setInsert _ hne, List.map_cons, List.sum_cons, hw, hwn]
      omega
    · rcases mem_setInsert.mp hx with rfl | hx
      · exact hlt
      · exact hs.1 x hx
    · simp only
      rw [mem_setInsert]
      simp [eq_comm]
  · unfold addNext
    rw [hn]
    refine ⟨⟨hs.2, ha.2, fun x hx => hl.on x (List.mem_cons_of_mem _ hx)⟩, ?_, hs.1, fun x => by simp⟩
    simp only
    rw [List.map_cons, List.sum_cons, hw]
    omega

theorem visit_mem {R : List Trk} (h : Fine R) (fuel : Nat) {l : List KeyPart} (hl : Set' R l) :
    ∀ x ∈ visit R fuel l, On R x ∧ ∃ k ∈ l, k = x ∨ lt k x := by
  induction fuel generalizing l with
  | zero => intro x hx; cases hx
  | succ fuel ih =>
    cases l with
    | nil => intro x hx; cases hx
    | cons k l =>
      intro x hx
      rw [visit] at hx
      obtain ⟨h1, _, h3, _⟩ := hl.step h
      rcases List.mem_cons.mp hx with rfl | hx
      · exact ⟨hl.on _ List.mem_cons_self, x, List.mem_cons_self, Or.inl rfl⟩
      · obtain ⟨ho, q, hq, hqx⟩ := ih h1 x hx
        refine ⟨ho, k, List.mem_cons_self, Or.inr ?_⟩
        rcases hqx with rfl | hqx
        · exact h3 _ hq
        · exact lt_trans (h3 _ hq) hqx

theorem visit_sorted {R : List Trk} (h : Fine R) (fuel : Nat) {l : List KeyPart} (hl : Set' R l) : (visit R fuel l).Pairwise lt := by
  induction fuel generalizing l with
  | zero => exact List.Pairwise.nil
  | succ fuel ih =>
    cases l with
    | nil => exact List.Pairwise.nil
    | cons k l =>
      obtain ⟨h1, _, h3, _⟩ := hl.step h
      rw [visit]
      refine List.pairwise_cons.mpr ⟨fun x hx => ?_, ih h1⟩
      obtain ⟨_, q, hq, hqx⟩ := visit_mem h fuel h1 x hx
      rcases hqx with rfl | hqx
      · exact h3 _ hq
      · exact lt_trans (h3 _ hq) hqx

theorem visit_track {R : List Trk} (h : Fine R) {t : Trk} (ht : t ∈ R) (fuel : Nat) {l : List KeyPart} (hl : Set' R l)
    (hf : (l.map (weight R)).sum ≤ fuel) :
    (∀ k ∈ l, k.track = t.id → (visit R fuel l).filter (fun x => x.track == t.id) = seq t k.index) ∧
    ((∀ k ∈ l, k.track ≠ t.id) → (visit R fuel l).filter (fun x => x.track == t.id) = []) := by
  induction fuel generalizing l with
  | zero =>
    cases l with
    | nil => exact ⟨fun k hk => (by cases hk), fun _ => rfl⟩
    | cons k l =>
      have := (hl.step h).2.1
      omega
  | succ fuel ih =>
    cases l with
    | nil => exact ⟨fun k hk => (by cases hk), fun _ => rfl⟩
    | cons k l =>
      obtain ⟨h1, h2, _, h4⟩ := hl.step h
      obtain ⟨i1, i2⟩ := ih h1 (by omega)
      have ha := hl.apart
      rw [List.map_cons, List.nodup_cons] at ha
      have hon := hl.on k List.mem_cons_self
      rw [visit]
      constructor
      · intro q hq hqt
        rcases List.mem_cons.mp hq with rfl | hq
        · rw [List.filter_cons_of_pos (by simp [hqt])]
          rcases On.next h hon ht hqt with ⟨n, hn, _, hnt, _, _, hseq⟩ | ⟨hn, hseq, _⟩
          · rw [i1 n ((h4 n).mpr (Or.inl hn)) hnt, hseq]
          · rw [i2, hseq]
            intro x hx hxt
            rcases (h4 x).mp hx with hx | hx
            · rw [hn] at hx; cases hx
            · exact ha.1 (by rw [hqt, ← hxt]; exact List.mem_map_of_mem hx)
        · have hne : k.track ≠ t.id := fun hc => ha.1 (by rw [hc, ← hqt]; exact List.mem_map_of_mem hq)
          rw [List.filter_cons_of_neg (by simp [hne])]
          exact i1 q ((h4 q).mpr (Or.inr hq)) hqt
      · intro hno
        have hne := hno k List.mem_cons_self
        rw [List.filter_cons_of_neg (by simp [hne])]
        refine i2 fun x hx => ?_
        rcases (h4 x).mp hx with hx | hx
        · rw [next_track hx]; exact hne
        · exact hno x (List.mem_cons_of_mem _ hx)

end Verif.Prog
