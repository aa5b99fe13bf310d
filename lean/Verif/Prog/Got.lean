import Verif.Prog.Visit

/-!
# The packets that a viewer gets are those that the header lists
-/
namespace Verif.Prog
open Verif.Prog.Spec
open Verif.Play (Pkt)
open Verif.Play.Spec (sent from_ packets lastTime plays start InOrder)

/-! ## The first parts of all tracks -/

theorem first_on {R : List Trk} (h : Fine R) {t : Trk} (ht : t ∈ R) : On R (firstPart t) := by
  have h2 := (h.two t ht).1
  have h0 := List.getElem?_eq_getElem (l := t.samples) (i := 0) (by omega)
  refine ⟨t, ht, rfl, ⟨_, h0, ?_⟩, by show 0 + 1 < _; omega⟩
  show _ = firstms t
  unfold firstms
  rw [List.head?_eq_getElem?, h0]
  rfl

theorem first_fold {R : List Trk} (h : Fine R) (Q : List Trk) (hQ : ∀ t ∈ Q, t ∈ R) (hn : (Q.map Trk.id).Nodup) (l : List KeyPart) (s : SortSet)
    (hl : Set' R l) (hs : s.Ok) (hm : ∀ x, x ∈ l ↔ s.Mem x) (hd : ∀ x ∈ l, ∀ t ∈ Q, x.track ≠ t.id) :
    Set' R (Q.foldl (fun s t => setInsert (firstPart t) s) l) ∧ (Q.foldl (fun s t => s.insert (firstPart t)) s).Ok ∧
    (∀ x, x ∈ Q.foldl (fun s t => setInsert (firstPart t) s) l ↔ (Q.foldl (fun s t => s.insert (firstPart t)) s).Mem x) ∧
    (∀ x, x ∈ Q.foldl (fun s t => setInsert (firstPart t) s) l ↔ x ∈ l ∨ ∃ t ∈ Q, x = firstPart t) ∧
    ((Q.foldl (fun s t => setInsert (firstPart t) s) l).map (weight R)).sum = (l.map (weight R)).sum + (Q.map fun t => weight R (firstPart t)).sum := by
  induction Q generalizing l s with
  | nil => exact ⟨hl, hs, hm, (fun x => by simp), (by simp)⟩
  | cons t Q ih =>
    rw [List.map_cons, List.nodup_cons] at hn
    have hne : ∀ x ∈ l, x.track ≠ (firstPart t).track := fun x hx => hd x hx t List.mem_cons_self
    obtain ⟨i1, i2⟩ := insert_ok hs (k := firstPart t) fun x hx => hne x ((hm x).mpr hx)
    obtain ⟨a1, a2, a3, a4, a5⟩ := ih (fun q hq => hQ q (List.mem_cons_of_mem _ hq)) hn.2 (setInsert (firstPart t) l) (s.insert (firstPart t))
      ⟨sorted_setInsert hl.sorted, apart_setInsert hl.apart hne, fun k hk => by
        rcases mem_setInsert.mp hk with rfl | hk
        · exact first_on h (hQ t List.mem_cons_self)
        · exact hl.on k hk⟩
      i1 (fun x => by rw [mem_setInsert, i2, hm]; exact Or.comm)
      (fun x hx q hq => by
        rcases mem_setInsert.mp hx with rfl | hx
        · exact fun hc => hn.1 (by rw [show t.id = q.id from hc]; exact List.mem_map_of_mem hq)
        · exact hd x hx q (List.mem_cons_of_mem _ hq))
    refine ⟨a1, a2, a3, fun x => ?_, ?_⟩
    · rw [List.foldl_cons, a4, mem_setInsert]
      constructor
      · rintro ((rfl | hx) | ⟨q, hq, rfl⟩)
        · exact Or.inr ⟨t, List.mem_cons_self, rfl⟩
        · exact Or.inl hx
        · exact Or.inr ⟨q, List.mem_cons_of_mem _ hq, rfl⟩
      · rintro (hx | ⟨q, hq, rfl⟩)
        · exact Or.inl (Or.inr hx)
        · rcases List.mem_cons.mp hq with rfl | hq
          · exact Or.inl (Or.inl rfl)
          · exact Or.inr ⟨q, hq, rfl⟩
    · rw [List.foldl_cons, a5, sum_setInsert _ hne, List.map_cons, List.sum_cons]
      omega

theorem new_ok : SortSet.new.Ok := ⟨(fun i j a b h => by simp [SortSet.new] at h), (fun _ k ⟨i, hi⟩ => by simp [SortSet.new] at hi), (fun h => by cases h)⟩

theorem first_set {R : List Trk} (h : Fine R) : Set' R (firstSet R) ∧ (∀ x, x ∈ firstSet R ↔ ∃ t ∈ R, x = firstPart t) ∧
    ((firstSet R).map (weight R)).sum ≤ total R ∧ ∀ fuel off, layout R fuel off = places R off (visit R fuel (firstSet R)) := by
  obtain ⟨a1, a2, a3, a4, a5⟩ := first_fold h R (fun _ => id) h.ids [] SortSet.new
    ⟨List.Pairwise.nil, List.nodup_nil, (fun k hk => by cases hk)⟩ new_ok (fun x => ⟨(fun hx => by cases hx), fun ⟨i, hi⟩ => by simp [SortSet.new] at hi⟩)
    (fun x hx => by cases hx)
  refine ⟨a1, fun x => ?_, ?_, fun fuel off => ?_⟩
  · unfold firstSet
    rw [a4]
    simp
  · unfold firstSet
    rw [a5, List.map_nil, List.sum_nil, Nat.zero_add]
    unfold total
    have : ∀ (Q : List Trk), (∀ t ∈ Q, t ∈ R) → (Q.map fun t => weight R (firstPart t)).sum ≤ (Q.map fun t => t.samples.length).sum := by
      intro Q hQ
      induction Q with
      | nil => simp
      | cons t Q ih =>
        rw [List.map_cons, List.sum_cons, List.map_cons, List.sum_cons]
        have := ih fun q hq => hQ q (List.mem_cons_of_mem _ hq)
        have hw : weight R (firstPart t) ≤ t.samples.length := by
          unfold weight
          rw [show (firstPart t).track = t.id from rfl, trkOf_eq h.ids (hQ t List.mem_cons_self)]
          omega
        omega
    exact this R fun _ => id
  · exact layout_visit R fuel _ _ off a2 a1.sorted a1.apart a3

theorem visit_fuel {R : List Trk} (h : Fine R) {l : List KeyPart} (hl : Set' R l) {f g : Nat} (hf : (l.map (weight R)).sum ≤ f)
    (hg : (l.map (weight R)).sum ≤ g) : visit R f l = visit R g l := by
  induction f generalizing l g with
  | zero =>
    cases l with
    | nil => cases g <;> rfl
    | cons k l =>
      have := (hl.step h).2.1
      omega
  | succ f ih =>
    cases l with
    | nil => cases g <;> rfl
    | cons k l =>
      obtain ⟨h1, h2, _⟩ := hl.step h
      cases g with
      | zero => omega
      | succ g => rw [visit, visit, ih h1 (g := g) (by omega) (by omega)]

/-- All parts that are visited. -/
def all (R : List Trk) : List KeyPart := visit R (total R) (firstSet R)

/-- The packet of a part. -/
def dataOf (R : List Trk) (k : KeyPart) : Bytes := ((trkOf R k.track).samples[k.index]?.map Sample.data).getD []

/-- What a viewer gets of a part. -/
def pk (R : List Trk) (k : KeyPart) : Nat × Pkt := (k.track, ⟨k.time, dataOf R k⟩)

theorem all_on {R : List Trk} (h : Fine R) : ∀ k ∈ all R, On R k := fun k hk => (visit_mem h _ (first_set h).1 k hk).1

theorem all_sorted {R : List Trk} (h : Fine R) : (all R).Pairwise lt := visit_sorted h _ (first_set h).1

theorem all_track {R : List Trk} (h : Fine R) {t : Trk} (ht : t ∈ R) : (all R).filter (fun x => x.track == t.id) = seq t 0 :=
  (visit_track h ht _ (first_set h).1 (first_set h).2.2.1).1 (firstPart t) (((first_set h).2.1 _).mpr ⟨t, ht, rfl⟩) rfl

theorem seq_pk {R : List Trk} (h : Fine R) {t : Trk} (ht : t ∈ R) : (seq t 0).map (fun k => (pk R k).2) = (t.samples.map fun s => Pkt.mk s.time s.data).dropLast := by
  unfold seq
  rw [List.drop_zero, List.map_dropLast, List.map_map]
  congr 1
  apply List.ext_getElem?
  intro i
  rw [List.getElem?_map, List.getElem?_map, List.getElem?_zipIdx]
  cases hs : t.samples[i]? with
  | none => rfl
  | some s =>
    simp only [Option.map_some, Function.comp, pk, dataOf, trkOf_eq h.ids ht, Nat.zero_add, hs, Option.getD_some]

theorem sent_map (R : List Trk) (t : Nat) (l : List KeyPart) : sent t (l.map (pk R)) = (l.filter fun k => k.track == t).map fun k => (pk R k).2 := by
  unfold sent
  rw [List.filter_map, List.map_map]
  rfl

theorem sent_all {R : List Trk} (h : Fine R) {t : Trk} (ht : t ∈ R) : sent t.id ((all R).map (pk R)) = (t.samples.map fun s => Pkt.mk s.time s.data).dropLast := by
  rw [sent_map, all_track h ht, seq_pk h ht]

/-- Two sequences in order are the same if they are so for every track. -/
theorem order_unique {a b : List (Nat × Pkt)} (ha : InOrder a) (hb : InOrder b) (h : ∀ t, sent t a = sent t b) : a = b := by
  have hmem : ∀ {l : List (Nat × Pkt)} {x : Nat × Pkt}, x ∈ l ↔ x.2 ∈ sent x.1 l := by
    intro l x
    unfold sent
    constructor
    · intro hx
      exact List.mem_map.mpr ⟨x, List.mem_filter.mpr ⟨hx, by simp⟩, rfl⟩
    · intro hx
      obtain ⟨y, hy, hyx⟩ := List.mem_map.mp hx
      obtain ⟨hy1, hy2⟩ := List.mem_filter.mp hy
      have : y = x := Prod.ext (by simpa using hy2) hyx
      exact this ▸ hy1
  induction a generalizing b with
  | nil =>
    cases b with
    | nil => rfl
    | cons y b =>
      have := hmem.mp (List.mem_cons_self (a := y) (l := b))
      rw [← h y.1] at this
      cases this
  | cons x a ih =>
    cases b with
    | nil =>
      have := hmem.mp (List.mem_cons_self (a := x) (l := a))
      rw [h x.1] at this
      cases this
    | cons y b =>
      unfold InOrder at ha hb
      rw [List.pairwise_cons] at ha hb
      have h1 : x ∈ y :: b := hmem.mpr (by rw [← h]; exact hmem.mp List.mem_cons_self)
      have h2 : y ∈ x :: a := hmem.mpr (by rw [h]; exact hmem.mp List.mem_cons_self)
      have hxy : x = y := by
        rcases List.mem_cons.mp h1 with h1 | h1
        · exact h1
        · rcases List.mem_cons.mp h2 with h2 | h2
          · exact h2.symm
          · have := ha.1 y h2
            have := hb.1 x h1
            omega
      subst hxy
      rw [ih ha.2 hb.2 fun t => ?_]
      have := h t
      unfold sent at this ⊢
      by_cases ht : (x.1 == t) = true
      · rw [List.filter_cons_of_pos (by exact ht), List.filter_cons_of_pos (by exact ht), List.map_cons, List.map_cons] at this
        exact (List.cons.inj this).2
      · rw [List.filter_cons_of_neg (by exact ht), List.filter_cons_of_neg (by exact ht)] at this
        exact this

theorem track_eq {R : List Trk} (h : Fine R) {a b : KeyPart} (ha : On R a) (hb : On R b) (ht : a.track = b.track) (hl : lt a b) : a.time < b.time := by
  obtain ⟨t, htR, hat, ⟨s, hs, hst⟩, _⟩ := ha
  obtain ⟨u, huR, hbu, ⟨r, hr, hrt⟩, _⟩ := hb
  have : u = t := by rw [← trkOf_eq h.ids htR, ← hat, ht, hbu, trkOf_eq h.ids huR]
  subst this
  rcases hl with hl | ⟨he, hl | ⟨_, hl⟩⟩
  · exact hl
  · omega
  · rw [← hst, ← hrt]
    exact time_lt (h.time _ htR) hl hs hr

theorem inOrder_map {R : List Trk} (h : Fine R) {l : List KeyPart} (hl : l.Pairwise lt) (hon : ∀ k ∈ l, On R k) : InOrder (l.map (pk R)) := by
  unfold InOrder
  rw [List.pairwise_map]
  refine hl.imp_of_mem fun {a b} ha hb hab => ?_
  show a.time < b.time ∨ (a.time = b.time ∧ a.track < b.track)
  rcases id hab with h1 | ⟨h1, h2 | ⟨h2, _⟩⟩
  · exact Or.inl h1
  · exact Or.inr ⟨h1, h2⟩
  · exact Or.inl (track_eq h (hon a ha) (hon b hb) h2 hab)

theorem lastTime_map (l : List Sample) : lastTime (l.map fun s => Pkt.mk s.time s.data) = (l.getLast?.map Sample.time).getD 0 := by
  unfold lastTime
  rw [List.getLast?_map, Option.map_map]
  rfl

/-- What a viewer gets from some position on: the visited parts that are not earlier. -/
theorem got_eq {R : List Trk} (h : Fine R) {T : Nat → Play.Spec.Track} (hT : Holds R T) (flag : Nat → Bool) (pos : Nat) :
    ∃ k, ∀ j, got R T flag pos (k + j) = ((all R).filter fun x => decide (pos ≤ x.time)).map (pk R) := by
  have hids : (R.map fun t => (t.id, flag t.id)).map Prod.fst = R.map Trk.id := by rw [List.map_map]; rfl
  obtain ⟨k, hk⟩ := Play.C77_vod_partial true T (R.map fun t => (t.id, flag t.id)) pos (by rw [hids]; exact h.ids) (by
    rw [hids]
    intro i hi
    obtain ⟨t, ht, rfl⟩ := List.mem_map.mp hi
    exact ⟨hT.good t ht, hT.now t ht⟩)
  refine ⟨k, fun j => ?_⟩
  obtain ⟨_, h2, h3, h4⟩ := hk j
  have hon := all_on h
  have hflt : ∀ x ∈ (all R).filter (fun x => decide (pos ≤ x.time)), On R x := fun x hx => hon x (List.mem_filter.mp hx).1
  refine order_unique (h4 rfl) (inOrder_map h ((all_sorted h).filter _) hflt) fun i => ?_
  by_cases hi : i ∈ R.map Trk.id
  · obtain ⟨t, ht, rfl⟩ := List.mem_map.mp hi
    have := h2 t.id (by rw [hids]; exact hi)
    show sent t.id (plays (k + j) _).out = _
    rw [this, sent_map, List.filter_filter]
    have hcomm : (all R).filter (fun x => (x.track == t.id) && decide (pos ≤ x.time)) = ((all R).filter fun x => x.track == t.id).filter fun x => decide (pos ≤ x.time) := by
      rw [List.filter_filter]
      congr 1
      funext x
      exact Bool.and_comm _ _
    rw [hcomm, all_track h ht]
    have hfm : ((seq t 0).filter fun x => decide (pos ≤ x.time)).map (fun k => (pk R k).2) =
        ((seq t 0).map fun k => (pk R k).2).filter fun p => decide (pos ≤ p.time) := by
      rw [List.filter_map]; rfl
    rw [hfm, seq_pk h ht, hT.now t ht, hT.packets t ht, lastTime_map]
    have h2' := (h.two t ht).1
    have hne : t.samples ≠ [] := fun hc => by rw [hc] at h2'; simp at h2'
    obtain ⟨init, x, hx⟩ : ∃ init x, t.samples = init ++ [x] := ⟨_, _, (List.dropLast_concat_getLast hne).symm⟩
    have hup := h.time t ht
    rw [hx] at hup ⊢
    rw [List.pairwise_append] at hup
    rw [List.getLast?_concat, List.map_append, List.map_singleton, List.dropLast_concat]
    simp only [Option.map_some, Option.getD_some]
    unfold from_
    rw [List.filter_append]
    have hxp : decide (min pos x.time ≤ x.time) = true := by simp; omega
    rw [List.filter_cons_of_pos (p := fun p : Pkt => decide (min pos x.time ≤ p.time)) (a := ⟨x.time, x.data⟩) hxp, List.filter_nil, List.dropLast_concat]
    apply List.filter_congr
    intro p hp
    obtain ⟨s, hs, rfl⟩ := List.mem_map.mp hp
    have := hup.2.2 s hs x (by simp)
    simp only [decide_eq_decide]
    omega
  · have hl : sent i (got R T flag pos (k + j)) = [] := by
      unfold sent
      rw [List.map_eq_nil_iff, List.filter_eq_nil_iff]
      intro x hx hxi
      have := h3 x hx
      rw [hids] at this
      exact hi ((show x.1 = i by simpa using hxi) ▸ this)
    rw [hl, sent_map, eq_comm, List.map_eq_nil_iff, List.filter_eq_nil_iff]
    intro x hx hxi
    obtain ⟨t, ht, hxt, _⟩ := hflt x hx
    exact hi (by rw [← (show x.track = i by simpa using hxi), hxt]; exact List.mem_map_of_mem ht)

end Verif.Prog
