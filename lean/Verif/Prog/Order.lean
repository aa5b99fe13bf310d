import Verif.Prog.Spec

/-!
# The order of samples
-/
namespace Verif.Prog

/-- The order of parts. -/
def lt (a b : KeyPart) : Prop := a.time < b.time ∨ (a.time = b.time ∧ (a.track < b.track ∨ (a.track = b.track ∧ a.index < b.index)))

theorem less_iff {a b : KeyPart} : less a b = true ↔ lt a b := by
  unfold less lt
  by_cases h1 : a.time < b.time
  · simp [h1]
  · by_cases h2 : a.time > b.time
    · have : a.time ≠ b.time := by omega
      simp [h1, h2, this]
    · have : a.time = b.time := by omega
      by_cases h3 : a.track < b.track
      · simp [this, h3]
      · simp [this, h3]

theorem lt_trans {a b c : KeyPart} (h : lt a b) (g : lt b c) : lt a c := by unfold lt at *; omega
theorem lt_irrefl {a : KeyPart} : ¬ lt a a := by unfold lt; omega
theorem lt_total {a b : KeyPart} (h : ¬ lt a b) (g : ¬ lt b a) : a = b := by
  cases a; cases b
  unfold lt at *
  simp only [KeyPart.mk.injEq] at *
  omega

theorem mem_setInsert {k x : KeyPart} {l : List KeyPart} : x ∈ setInsert k l ↔ x = k ∨ x ∈ l := by
  induction l with
  | nil => simp [setInsert]
  | cons y l ih =>
    unfold setInsert
    by_cases h1 : less k y = true
    · rw [if_pos h1]; simp
    · rw [if_neg h1]
      by_cases h2 : less y k = true
      · rw [if_pos h2, List.mem_cons, ih, List.mem_cons]
        constructor
        · rintro (h | h | h)
          · exact Or.inr (Or.inl h)
          · exact Or.inl h
          · exact Or.inr (Or.inr h)
        · rintro (h | h | h)
          · exact Or.inr (Or.inl h)
          · exact Or.inl h
          · exact Or.inr (Or.inr h)
      · rw [if_neg h2]
        have := lt_total (fun h => h1 (less_iff.mpr h)) (fun h => h2 (less_iff.mpr h))
        subst this
        simp

theorem sorted_setInsert {k : KeyPart} {l : List KeyPart} (h : l.Pairwise lt) : (setInsert k l).Pairwise lt := by
  induction l with
  | nil => simp [setInsert]
  | cons y l ih =>
    rw [List.pairwise_cons] at h
    unfold setInsert
    by_cases h1 : less k y = true
    · rw [if_pos h1]
      refine List.pairwise_cons.mpr ⟨fun x hx => ?_, List.pairwise_cons.mpr h⟩
      rcases List.mem_cons.mp hx with rfl | hx
      · exact less_iff.mp h1
      · exact lt_trans (less_iff.mp h1) (h.1 x hx)
    · rw [if_neg h1]
      by_cases h2 : less y k = true
      · rw [if_pos h2]
        refine List.pairwise_cons.mpr ⟨fun x hx => ?_, ih h.2⟩
        rcases mem_setInsert.mp hx with rfl | hx
        · exact less_iff.mp h2
        · exact h.1 x hx
      · rw [if_neg h2]
        exact List.pairwise_cons.mpr h

theorem sorted_ext {l m : List KeyPart} (hl : l.Pairwise lt) (hm : m.Pairwise lt) (h : ∀ x, x ∈ l ↔ x ∈ m) : l = m := by
  induction l generalizing m with
  | nil =>
    cases m with
    | nil => rfl
    | cons y m => exact absurd ((h y).mpr List.mem_cons_self) (by simp)
  | cons x l ih =>
    cases m with
    | nil => exact absurd ((h x).mp List.mem_cons_self) (by simp)
    | cons y m =>
      rw [List.pairwise_cons] at hl hm
      have hxy : x = y := by
        rcases List.mem_cons.mp ((h x).mp List.mem_cons_self) with hx | hx
        · exact hx
        · rcases List.mem_cons.mp ((h y).mpr List.mem_cons_self) with hy | hy
          · exact hy.symm
          · exact absurd (lt_trans (hl.1 y hy) (hm.1 x hx)) lt_irrefl
      subst hxy
      rw [ih hl.2 hm.2 fun z => ?_]
      constructor
      · intro hz
        rcases List.mem_cons.mp ((h z).mp (List.mem_cons_of_mem _ hz)) with rfl | hz'
        · exact absurd (hl.1 z hz) lt_irrefl
        · exact hz'
      · intro hz
        rcases List.mem_cons.mp ((h z).mpr (List.mem_cons_of_mem _ hz)) with rfl | hz'
        · exact absurd (hm.1 z hz) lt_irrefl
        · exact hz'

/-! ## The set of the header -/

/-- A part is in the set. -/
def SortSet.Mem (s : SortSet) (k : KeyPart) : Prop := ∃ i : Nat, s.slots[i]? = some (true, k)

/-- Slots in use have different tracks, and the first part is known. -/
structure SortSet.Ok (s : SortSet) : Prop where
  apart : ∀ (i j : Nat) (a b : KeyPart), s.slots[i]? = some (true, a) → s.slots[j]? = some (true, b) → a.track = b.track → i = j
  none : s.has = false → ∀ k, ¬ s.Mem k
  first : s.has = true → ∃ k, s.slots[s.cur]? = some (true, k) ∧ ∀ x, s.Mem x → ¬ lt x k

theorem begin_eq {s : SortSet} {k : KeyPart} (h : s.has = true) (hk : s.slots[s.cur]? = some (true, k)) : s.begin = k := by
  unfold SortSet.begin
  rw [if_pos h]
  simp [List.getD_eq_getElem?_getD, hk]

theorem findLoop_spec (all pre l : List (Bool × KeyPart)) (hall : all = pre ++ l) (s : Nat × Bool)
    (h0 : s.2 = false → ∀ k, (true, k) ∉ pre)
    (h1 : s.2 = true → s.1 < pre.length ∧ ∃ k, all[s.1]? = some (true, k) ∧ ∀ x, (true, x) ∈ pre → ¬ lt x k) :
    ((findLoop all l pre.length s).2 = false → ∀ k, (true, k) ∉ all) ∧
    ((findLoop all l pre.length s).2 = true → ∃ k, all[(findLoop all l pre.length s).1]? = some (true, k) ∧ ∀ x, (true, x) ∈ all → ¬ lt x k) := by
  induction l generalizing pre s with
  | nil =>
    rw [List.append_nil] at hall
    subst hall
    exact ⟨h0, fun h => (h1 h).2⟩
  | cons x l ih =>
    have hx : all[pre.length]? = some x := by rw [hall]; simp
    have hall' : all = (pre ++ [x]) ++ l := by rw [hall]; simp
    have hlen : pre.length + 1 = (pre ++ [x]).length := by simp
    rw [findLoop]
    by_cases c1 : (!s.2 && x.1) = true
    · rw [if_pos c1, hlen]
      simp only [Bool.and_eq_true, Bool.not_eq_true'] at c1
      refine ih _ hall' _ (fun h => by cases h) fun _ => ⟨by simp, x.2, ?_, fun y hy => ?_⟩
      · rw [hx]; cases x; simp only at c1; rw [c1.2]
      · rcases List.mem_append.mp hy with hy | hy
        · exact absurd hy (h0 c1.1 y)
        · rw [List.mem_singleton] at hy
          rw [← hy]; exact lt_irrefl
    · rw [if_neg c1]
      by_cases c2 : (x.1 && less x.2 (all.getD s.1 (false, ⟨0, 0, 0⟩)).2) = true
      · rw [if_pos c2, hlen]
        simp only [Bool.and_eq_true] at c2
        have hs : s.2 = true := by
          cases hs : s.2 with
          | true => rfl
          | false => rw [hs, c2.1] at c1; exact absurd rfl c1
        obtain ⟨hlt, k, hk, hmin⟩ := h1 hs
        refine ih _ hall' _ (fun h => by rw [hs] at h; cases h) fun _ => ⟨by simp, x.2, ?_, fun y hy => ?_⟩
        · rw [hx]; cases x; simp only at c2; rw [c2.1]
        · have hxk : lt x.2 k := by
            have := c2.2
            rw [List.getD_eq_getElem?_getD, hk] at this
            exact less_iff.mp this
          rcases List.mem_append.mp hy with hy | hy
          · exact fun h => hmin y hy (lt_trans h hxk)
          · rw [List.mem_singleton] at hy
            rw [← hy]; exact lt_irrefl
      · rw [if_neg c2, hlen]
        refine ih _ hall' _ (fun h k hk => ?_) fun h => ?_
        · rcases List.mem_append.mp hk with hk | hk
          · exact h0 h k hk
          · rw [List.mem_singleton] at hk
            rw [h, ← hk] at c1; exact c1 rfl
        · obtain ⟨hlt, k, hk, hmin⟩ := h1 h
          refine ⟨by rw [← hlen]; omega, k, hk, fun y hy => ?_⟩
          rcases List.mem_append.mp hy with hy | hy
          · exact hmin y hy
          · rw [List.mem_singleton] at hy
            intro hl
            apply c2
            rw [List.getD_eq_getElem?_getD, hk, ← hy]
            simp only [Bool.true_and]
            exact less_iff.mpr hl

theorem mem_slots {s : SortSet} {k : KeyPart} : s.Mem k ↔ (true, k) ∈ s.slots := by
  rw [List.mem_iff_getElem?]
  exact Iff.rfl

theorem erase_ok {s : SortSet} (h : s.Ok) (hh : s.has = true) : s.erase.Ok ∧ ∀ x, s.erase.Mem x ↔ s.Mem x ∧ x ≠ s.begin := by
  obtain ⟨k, hk, hmin⟩ := h.first hh
  have hlt : s.cur < s.slots.length := by
    by_cases hc : s.cur < s.slots.length
    · exact hc
    · rw [List.getElem?_eq_none (by omega)] at hk; cases hk
  rw [begin_eq hh hk]
  unfold SortSet.erase
  rw [if_pos hh]
  unfold SortSet.findBegin
  have hne : (s.slots.set s.cur (false, (s.slots.getD s.cur (false, ⟨0, 0, 0⟩)).2)).isEmpty = false := by
    rw [List.isEmpty_eq_false_iff]
    intro h0
    have := congrArg List.length h0
    rw [List.length_set, List.length_nil] at this
    omega
  rw [hne, if_neg (show ¬ (false = true) by decide)]
  simp only
  generalize hsl : s.slots.set s.cur (false, (s.slots.getD s.cur (false, ⟨0, 0, 0⟩)).2) = sl
  have hget : ∀ (i : Nat) (a : KeyPart), sl[i]? = some (true, a) ↔ i ≠ s.cur ∧ s.slots[i]? = some (true, a) := by
    intro i a
    rw [← hsl, List.getElem?_set]
    by_cases hi : s.cur = i
    · rw [if_pos hi]
      simp only [hi, ne_eq, not_true_eq_false, false_and, iff_false]
      by_cases hl : i < s.slots.length
      · rw [if_pos (by omega)]
        intro h
        cases (Option.some.inj h)
      · rw [if_neg (by omega)]
        intro h
        cases h
    · rw [if_neg hi]
      simp [Ne.symm hi]
  have hsp := findLoop_spec sl [] sl rfl (0, false) (fun _ k => by simp) (fun h => by cases h)
  rw [List.length_nil] at hsp
  refine ⟨⟨?_, ?_, ?_⟩, ?_⟩
  · intro i j a b hi hj hab
    exact h.apart i j a b ((hget i a).mp hi).2 ((hget j b).mp hj).2 hab
  · intro hf x hx
    exact hsp.1 hf x (mem_slots.mp hx)
  · intro hf
    obtain ⟨q, hq, hm⟩ := hsp.2 hf
    exact ⟨q, hq, fun x hx => hm x (mem_slots.mp hx)⟩
  · intro x
    constructor
    · rintro ⟨i, hi⟩
      obtain ⟨hi1, hi2⟩ := (hget i x).mp hi
      refine ⟨⟨i, hi2⟩, ?_⟩
      rintro rfl
      exact hi1 (h.apart i s.cur x x hi2 hk rfl)
    · rintro ⟨⟨i, hi⟩, hx⟩
      refine ⟨i, (hget i x).mpr ⟨?_, hi⟩⟩
      rintro rfl
      rw [hk] at hi
      exact hx (Prod.mk.inj (Option.some.inj hi)).2.symm

theorem findSlot_spec (k : KeyPart) (l : List (Bool × KeyPart)) (i : Nat) :
    i ≤ findSlot k l i ∧ findSlot k l i ≤ i + l.length ∧
    (∀ x, l[findSlot k l i - i]? = some x → x.1 = false ∨ x.2.track = k.track) := by
  induction l generalizing i with
  | nil => simp [findSlot]
  | cons y l ih =>
    rw [findSlot]
    by_cases hc : (!y.1 || y.2.track == k.track) = true
    · rw [if_pos hc]
      refine ⟨by omega, by omega, fun x hx => ?_⟩
      rw [Nat.sub_self] at hx
      cases (Option.some.inj hx)
      simpa using hc
    · rw [if_neg hc]
      obtain ⟨h1, h2, h3⟩ := ih (i + 1)
      refine ⟨by omega, by simp; omega, fun x hx => h3 x ?_⟩
      have : findSlot k l (i + 1) - i = (findSlot k l (i + 1) - (i + 1)) + 1 := by omega
      rw [this, List.getElem?_cons_succ] at hx
      exact hx

theorem insert_ok {s : SortSet} (h : s.Ok) {k : KeyPart} (hk : ∀ x, s.Mem x → x.track ≠ k.track) :
    (s.insert k).Ok ∧ ∀ x, (s.insert k).Mem x ↔ s.Mem x ∨ x = k := by
  unfold SortSet.insert
  obtain ⟨_, h2, h3⟩ := findSlot_spec k s.slots 0
  generalize findSlot k s.slots 0 = i at h2 h3
  rw [Nat.zero_add] at h2
  rw [Nat.sub_zero] at h3
  simp only
  generalize hsl : (if i < s.slots.length then s.slots.set i (true, k) else s.slots ++ [(true, k)]) = sl
  have hi : sl[i]? = some (true, k) := by
    rw [← hsl]
    by_cases hc : i < s.slots.length
    · rw [if_pos hc, List.getElem?_set, if_pos rfl, if_pos hc]
    · rw [if_neg hc]
      have : i = s.slots.length := by omega
      rw [this]; simp
  have hj : ∀ (j : Nat), j ≠ i → sl[j]? = s.slots[j]? := by
    intro j hj
    rw [← hsl]
    by_cases hc : i < s.slots.length
    · rw [if_pos hc, List.getElem?_set, if_neg (Ne.symm hj)]
    · rw [if_neg hc]
      by_cases hl : j < s.slots.length
      · rw [List.getElem?_append_left hl]
      · rw [List.getElem?_eq_none (by simp only [List.length_append, List.length_singleton]; omega), List.getElem?_eq_none (by omega)]
  have hold : ∀ (a : KeyPart), s.slots[i]? ≠ some (true, a) := by
    intro a ha
    rcases h3 _ ha with h | h
    · cases h
    · exact hk a ⟨i, ha⟩ h
  have hmem : ∀ x, (∃ j : Nat, sl[j]? = some (true, x)) ↔ s.Mem x ∨ x = k := by
    intro x
    constructor
    · rintro ⟨j, hx⟩
      by_cases hji : j = i
      · rw [hji, hi] at hx
        exact Or.inr (Prod.mk.inj (Option.some.inj hx)).2.symm
      · rw [hj j hji] at hx
        exact Or.inl ⟨j, hx⟩
    · rintro (⟨j, hx⟩ | rfl)
      · refine ⟨j, ?_⟩
        rw [hj j ?_]
        · exact hx
        · rintro rfl
          exact hold x hx
      · exact ⟨i, hi⟩
  have hap : ∀ (a b : Nat) (x y : KeyPart), sl[a]? = some (true, x) → sl[b]? = some (true, y) → x.track = y.track → a = b := by
    intro a b x y ha hb hxy
    by_cases hai : a = i
    · by_cases hbi : b = i
      · omega
      · rw [hj b hbi] at hb
        rw [hai, hi] at ha
        exact absurd (hxy ▸ congrArg KeyPart.track (Prod.mk.inj (Option.some.inj ha)).2.symm) (hk y ⟨b, hb⟩)
    · by_cases hbi : b = i
      · rw [hj a hai] at ha
        rw [hbi, hi] at hb
        exact absurd (hxy.trans (congrArg KeyPart.track (Prod.mk.inj (Option.some.inj hb)).2.symm)) (hk x ⟨a, ha⟩)
      · rw [hj a hai] at ha
        rw [hj b hbi] at hb
        exact h.apart a b x y ha hb hxy
  by_cases hh : s.has = true
  · obtain ⟨q, hq, hmin⟩ := h.first hh
    have hci : s.cur ≠ i := fun hc => hold q (hc ▸ hq)
    have hq' : sl[s.cur]? = some (true, q) := by rw [hj _ hci]; exact hq
    have hb : SortSet.begin { s with slots := sl } = q := begin_eq (s := { s with slots := sl }) hh hq'
    rw [hb, hh]
    by_cases hl : less k q = true
    · rw [hl]
      refine ⟨⟨hap, (fun h => by cases h), fun _ => ⟨k, hi, fun x hx => ?_⟩⟩, hmem⟩
      rcases (hmem x).mp hx with hx | rfl
      · exact fun hlt => hmin x hx (lt_trans hlt (less_iff.mp hl))
      · exact lt_irrefl
    · rw [Bool.not_eq_true] at hl
      rw [hl]
      refine ⟨⟨hap, (fun h => by cases h), fun _ => ⟨q, hq', fun x hx => ?_⟩⟩, hmem⟩
      rcases (hmem x).mp hx with hx | rfl
      · exact hmin x hx
      · intro hlt
        rw [less_iff.mpr hlt] at hl
        cases hl
  · rw [Bool.not_eq_true] at hh
    rw [hh]
    refine ⟨⟨hap, (fun h => by cases h), fun _ => ⟨k, hi, fun x hx => ?_⟩⟩, hmem⟩
    rcases (hmem x).mp hx with hx | rfl
    · exact absurd hx (h.none hh x)
    · exact lt_irrefl

/-! ## Walking over parts -/

/-- The parts that are visited, first ones first. -/
def visit (R : List Trk) : Nat → List KeyPart → List KeyPart
  | 0, _ => []
  | _ + 1, [] => []
  | fuel + 1, k :: l => k :: visit R fuel (addNext R k l)

/-- Places one after the other. -/
def places (R : List Trk) : Nat → List KeyPart → List (KeyPart × Nat)
  | _, [] => []
  | pos, k :: l => (k, pos) :: places R (pos + (part (trkOf R k.track) k.index).size) l

theorem next_track {R : List Trk} {k n : KeyPart} (h : nextPart R k = some n) : n.track = k.track := by
  unfold nextPart at h
  split at h
  · cases h; rfl
  · cases h

theorem apart_setInsert {n : KeyPart} {l : List KeyPart} (hp : (l.map KeyPart.track).Nodup) (hn : ∀ x ∈ l, x.track ≠ n.track) :
    ((setInsert n l).map KeyPart.track).Nodup := by
  induction l with
  | nil => simp [setInsert]
  | cons y l ih =>
    rw [List.map_cons, List.nodup_cons] at hp
    unfold setInsert
    split
    · rw [List.map_cons, List.nodup_cons]
      refine ⟨fun hm => ?_, by rw [List.map_cons, List.nodup_cons]; exact hp⟩
      obtain ⟨z, hz, hzn⟩ := List.mem_map.mp hm
      exact hn z hz hzn
    · split
      · rw [List.map_cons, List.nodup_cons]
        refine ⟨fun hm => ?_, ih hp.2 fun x hx => hn x (List.mem_cons_of_mem _ hx)⟩
        obtain ⟨z, hz, hzn⟩ := List.mem_map.mp hm
        rcases mem_setInsert.mp hz with rfl | hz
        · exact hn y List.mem_cons_self hzn.symm
        · exact hp.1 (hzn ▸ List.mem_map_of_mem hz)
      · rw [List.map_cons, List.nodup_cons]
        exact hp

theorem layout_visit (R : List Trk) (fuel : Nat) (s : SortSet) (l : List KeyPart) (pos : Nat) (hs : s.Ok) (hl : l.Pairwise lt)
    (hd : (l.map KeyPart.track).Nodup) (h : ∀ x, x ∈ l ↔ s.Mem x) : layoutLoop R fuel s pos = places R pos (visit R fuel l) := by
  induction fuel generalizing s l pos with
  | zero => rfl
  | succ fuel ih =>
    rw [layoutLoop]
    cases l with
    | nil =>
      have : s.has = false := by
        cases hh : s.has with
        | false => rfl
        | true =>
          obtain ⟨k, hk, _⟩ := hs.first hh
          exact absurd ((h k).mpr ⟨_, hk⟩) (by simp)
      rw [this]
      rfl
    | cons k l =>
      have hh : s.has = true := by
        cases hh : s.has with
        | true => rfl
        | false => exact absurd ((h k).mp List.mem_cons_self) (hs.none hh k)
      obtain ⟨q, hq, hmin⟩ := hs.first hh
      have hb := begin_eq hh hq
      rw [List.pairwise_cons] at hl
      rw [List.map_cons, List.nodup_cons] at hd
      have hqk : q = k := by
        rcases List.mem_cons.mp ((h q).mpr ⟨_, hq⟩) with h1 | h1
        · exact h1
        · exact absurd (hl.1 q h1) (hmin k ((h k).mp List.mem_cons_self))
      subst hqk
      obtain ⟨he, hem⟩ := erase_ok hs hh
      rw [hb] at hem
      have hmem : ∀ x, x ∈ l ↔ s.erase.Mem x := by
        intro x
        rw [hem, ← h x, List.mem_cons]
        constructor
        · intro hx
          refine ⟨Or.inr hx, ?_⟩
          rintro rfl
          exact absurd (hl.1 x hx) lt_irrefl
        · rintro ⟨hx | hx, hne⟩
          · exact absurd hx hne
          · exact hx
      rw [hh, if_neg (by simp), visit, places]
      simp only
      rw [hb]
      congr 1
      unfold addNext
      cases hn : nextPart R q with
      | none => exact ih _ _ _ he hl.2 hd.2 hmem
      | some n =>
        have hnt := next_track hn
        have hnew : ∀ x, s.erase.Mem x → x.track ≠ n.track := by
          intro x hx
          rw [hnt]
          intro heq
          exact hd.1 (heq ▸ List.mem_map_of_mem ((hmem x).mpr hx))
        obtain ⟨hi, him⟩ := insert_ok he hnew
        refine ih _ _ _ hi (sorted_setInsert hl.2) ?_ fun x => ?_
        · exact apart_setInsert hd.2 fun x hx heq => hd.1 (by rw [← hnt, ← heq]; exact List.mem_map_of_mem hx)
        · rw [mem_setInsert, him, hmem]
          exact Or.comm

end Verif.Prog
