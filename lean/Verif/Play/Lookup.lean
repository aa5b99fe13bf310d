import Verif.Play.Lemmas

/-!
# What the look-ups give for the tables of a good track
-/
namespace Verif.Play
open Spec

/-- The number of the page after pages `A`. -/
def numAt (T : Track) (A : Pages) : Nat := T.n + A.flatten.length

/-- A place of a track: pages `A`, then page `p`, then pages `B`. -/
structure At (T : Track) (A : Pages) (p : List (List Pkt)) (B : Pages) : Prop where
  good : Good T
  eq : T.pages = A ++ p :: B

theorem At.pageNe {T A p B} (h : At T A p B) : p ≠ [] := h.good.page p (by rw [h.eq]; simp)
theorem At.keyNe {T A p B} (h : At T A p B) : ∀ g ∈ p, g ≠ [] := fun g hg => h.good.key g (by rw [h.eq]; simp [hg])
theorem At.flatNe {T A p B} (h : At T A p B) : p.flatten ≠ [] := flatten_ne h.pageNe h.keyNe
theorem At.before {T A p B} (h : At T A p B) : ∀ q ∈ A, q ≠ [] := fun q hq => h.good.page q (by rw [h.eq]; simp [hq])
theorem At.after {T A p B} (h : At T A p B) : ∀ q ∈ B, q ≠ [] := fun q hq => h.good.page q (by rw [h.eq]; simp [hq])
theorem At.keysBefore {T A p B} (h : At T A p B) : ∀ g ∈ A.flatten, g ≠ [] := fun q hq => h.good.key q (by
  rw [h.eq, List.flatten_append]; exact List.mem_append_left _ hq)
theorem At.keysAfter {T A p B} (h : At T A p B) : ∀ g ∈ B.flatten, g ≠ [] := fun q hq => h.good.key q (by
  rw [h.eq, List.flatten_append, List.flatten_cons]; exact List.mem_append_right _ (List.mem_append_right _ hq))
theorem At.up {T A p B} (h : At T A p B) : Up (packets A ++ (p.flatten ++ packets B)) := by
  have := h.good.time; rw [h.eq, packets_split] at this; exact this
theorem At.upPage {T A p B} (h : At T A p B) : Up p.flatten := (List.pairwise_append.1 (List.pairwise_append.1 h.up).2.1).1
theorem At.upAfter {T A p B} (h : At T A p B) : Up (packets B) := (List.pairwise_append.1 (List.pairwise_append.1 h.up).2.1).2.1
theorem At.beforeLt {T A p B} (h : At T A p B) : ∀ x ∈ packets A, ∀ y ∈ p.flatten, x.time < y.time := fun x hx y hy =>
  (List.pairwise_append.1 h.up).2.2 x hx y (List.mem_append_left _ hy)
theorem At.afterLt {T A p B} (h : At T A p B) : ∀ x ∈ p.flatten, ∀ y ∈ packets B, x.time < y.time := fun x hx y hy =>
  (List.pairwise_append.1 (List.pairwise_append.1 h.up).2.1).2.2 x hx y hy

/-- The next page. -/
theorem At.next {T A p q B} (h : At T A p (q :: B)) : At T (A ++ [p]) q B := ⟨h.good, by rw [h.eq]; simp⟩

theorem At.lastms {T A p} (h : At T A p []) : lastTime (packets T.pages) = lastTime p.flatten := by
  rw [h.eq, packets_split, lastTime_append _ _ (by simp [h.flatNe])]
  simp [packets]

theorem At.numLt {T A p q B} (h : At T A p (q :: B)) : numAt T A < numAt T (A ++ [p]) := by
  have := List.length_pos_iff.2 h.pageNe
  simp only [numAt, List.flatten_append, List.flatten_cons, List.flatten_nil, List.append_nil, List.length_append]
  omega

theorem find_skip (X Y : List Page) (r : Page) (n : Nat) (h : ∀ x ∈ X, x.num < n) (hr : r.num = n) : (X ++ r :: Y).find? (fun p => p.num == n) = some r := by
  induction X with
  | nil => simp [hr]
  | cons x X ih =>
    have hx := h x (by simp)
    have hb : (x.num == n) = false := by simp; omega
    rw [List.cons_append, List.find?_cons, hb]
    exact ih (fun y hy => h y (by simp [hy]))

theorem At.mapped {T A p B} (h : At T A p B) : mapped (source T) (some (numAt T A)) = some p.flatten := by
  unfold Play.mapped source
  simp only
  rw [h.eq, pageTable_split, find_skip _ _ (recd T.n A p) (numAt T A) (fun x hx => by
    have := pageTable_num _ _ h.before x hx
    unfold numAt; omega) rfl]
  rfl

theorem At.pages {T A p B} (h : At T A p B) {t : Nat} (h1 : firstTime p.flatten ≤ t) (h2 : ∀ q B', B = q :: B' → t < firstTime q.flatten) :
    pagesForTime (source T) t = (numAt T A, if B = [] then 0 else numAt T (A ++ [p])) := by
  unfold pagesForTime source
  simp only
  rw [h.eq, pageTable_split, timeLoop_skip t _ _ _ ?_ (recd T.n A p) rfl h1]
  · cases B with
    | nil => rfl
    | cons q B =>
      have := h2 q B rfl
      simp only [pageTable, timeLoop]
      rw [if_neg (by simp), if_pos this]
      rfl
  · intro r hr
    refine ⟨(pageTable_num _ _ h.before r hr).2.2.2, ?_⟩
    obtain ⟨x, hx, hx2⟩ := pageTable_time T.n A h.before h.keysBefore r hr
    obtain ⟨y, hy, hy2⟩ := firstTime_mem h.flatNe
    have := h.beforeLt x hx y hy
    omega

theorem At.keysNe {T A p B} (h : At T A p B) : (source T).keys ≠ [] := by
  intro h0
  have h1 : (keyTable none T.pages.flatten).length = 0 := by
    show (source T).keys.length = 0
    rw [h0]; rfl
  rw [keyTable_length, h.eq] at h1
  have := List.length_pos_iff.2 h.pageNe
  simp only [List.flatten_append, List.flatten_cons, List.length_append] at h1
  omega

theorem At.endKey {T A p B} (h : At T A p B) : endKey (source T) = numAt T (A ++ [p]) + B.flatten.length := by
  unfold Play.endKey source numAt
  simp only
  rw [keyTable_length, h.eq]
  simp only [List.flatten_append, List.flatten_cons, List.flatten_nil, List.append_nil, List.length_append]
  omega

/-- Any key of a page opens the page. -/
theorem At.load {T A p B} (h : At T A p B) (live : Bool) (cur : Option Nat) {k : Nat} (h1 : numAt T A ≤ k) (h2 : k < numAt T A + p.length) :
    loadPage live (source T) cur k = some (numAt T A) := by
  unfold loadPage
  rw [h.endKey]
  have hk := h.keysNe
  have hlt : numAt T (A ++ [p]) = numAt T A + p.length := by
    simp only [numAt, List.flatten_append, List.flatten_cons, List.flatten_nil, List.append_nil, List.length_append, Nat.add_assoc]
  rw [if_neg (by simpa using hk), if_neg (by simp; intro _; omega)]
  show pageNumForKey (pageTable T.n T.pages) k = _
  rw [h.eq, pageTable_split, numLoop_skip k _ _ ?_ (recd T.n A p) rfl h1 (by show k < numAt T A + p.length; exact h2)]
  · rfl
  · intro r hr
    have := pageTable_num _ _ h.before r hr
    unfold numAt at h1
    omega

theorem At.loadSelf {T A p B} (h : At T A p B) (live : Bool) (cur : Option Nat) : loadPage live (source T) cur (numAt T A) = some (numAt T A) :=
  h.load live cur (Nat.le_refl _) (by have := List.length_pos_iff.2 h.pageNe; omega)

theorem flatten_split (A : Pages) (p : List (List Pkt)) (B : Pages) : (A ++ p :: B).flatten = (A.flatten ++ p) ++ B.flatten := by simp

theorem flatten_flatten_append (X Y : List (List Pkt)) : (X ++ Y).flatten = X.flatten ++ Y.flatten := by simp

theorem getLast_ne {l : List (List Pkt)} (h : l ≠ []) : ∃ g, l.getLast? = some g := ⟨l.getLast h, List.getLast?_eq_some_getLast h⟩

theorem prevOf_last (K : List (List Pkt)) (hK : K ≠ []) (h : ∀ g ∈ K, g ≠ []) : prevOf none K = some (lastTime K.flatten) := by
  obtain ⟨g, hg⟩ := getLast_ne hK
  unfold prevOf
  rw [hg]
  simp only
  obtain ⟨L, rfl⟩ := List.getLast?_eq_some_iff.1 hg
  rw [List.flatten_append, lastTime_append _ _ (by simp [h g (by simp)])]
  simp

/-- The key of the last packet of a page is the last key of the page. -/
theorem At.keyNum {T A p B} (h : At T A p B) : keyNumForTime (source T) (lastTime p.flatten) = some (numAt T (A ++ [p]) - 1) := by
  have hk := h.keysNe
  unfold keyNumForTime
  cases hks : (source T).keys with
  | nil => exact absurd hks hk
  | cons k0 ks =>
    rw [← hks]
    simp only
    congr 1
    show keyNumLoop _ (keyTable none T.pages.flatten) T.n T.n = _
    have hpne : A.flatten ++ p ≠ [] := by simp [h.pageNe]
    have hkn : ∀ g ∈ A.flatten ++ p, g ≠ [] := by
      intro g hg
      rcases List.mem_append.1 hg with hg | hg
      · exact h.keysBefore g hg
      · exact h.keyNe g hg
    have hlast : lastTime (A.flatten ++ p).flatten = lastTime p.flatten := by
      rw [List.flatten_append, lastTime_append _ _ h.flatNe]
    rw [h.eq, flatten_split, keyTable_append, keyNumLoop_le, keyNumLoop_gt, keyTable_length]
    · rw [if_neg (by
        intro h0
        have := congrArg List.length h0
        rw [keyTable_length] at this
        exact hpne (List.length_eq_zero_iff.1 this))]
      simp only [numAt, List.flatten_append, List.flatten_cons, List.flatten_nil, List.append_nil]
    · rw [prevOf_last _ hpne hkn, hlast]
      exact keyTable_after _ _ h.keysAfter h.upAfter (fun x hx => by
        obtain ⟨y, hy, hy2⟩ := lastTime_mem h.flatNe
        rw [← hy2]
        exact h.afterLt y hy x hx)
    · refine keyTable_le _ _ hkn _ (fun x hx => ?_)
      rw [List.flatten_append] at hx
      rcases List.mem_append.1 hx with hx | hx
      · obtain ⟨y, hy, hy2⟩ := lastTime_mem h.flatNe
        have := h.beforeLt x hx y hy
        omega
      · exact le_lastTime h.upPage x hx

theorem At.noNextKey {T A p} (h : At T A p []) : nextKey (source T) (lastTime p.flatten) = none := by
  unfold nextKey
  rw [h.keyNum, h.endKey]
  simp only [List.flatten_nil, List.length_nil]
  rw [if_neg (by omega)]

theorem At.numPos {T A p B} (h : At T A p B) : numAt T (A ++ [p]) - 1 + 1 = numAt T (A ++ [p]) := by
  have := List.length_pos_iff.2 h.pageNe
  simp only [numAt, List.flatten_append, List.flatten_cons, List.flatten_nil, List.append_nil, List.length_append]
  omega

theorem At.nextKey {T A p q B} (h : At T A p (q :: B)) :
    nextKey (source T) (lastTime p.flatten) = some (numAt T (A ++ [p]), numAt T (A ++ [p])) := by
  unfold Play.nextKey
  rw [h.keyNum, h.endKey]
  simp only
  rw [h.numPos]
  have hq := List.length_pos_iff.2 h.next.pageNe
  rw [if_pos (by simp only [List.flatten_cons, List.length_append]; omega)]
  congr 2
  show keyLoop _ (pageTable T.n T.pages) _ = _
  have h' := h.next
  rw [h'.eq, pageTable_split, keyLoop_skip (numAt T (A ++ [p])) _ _ _ ?_ (recd T.n (A ++ [p]) q) rfl (Nat.le_refl _) ?_]
  · rfl
  · intro r hr
    have := pageTable_num _ _ h'.before r hr
    refine ⟨this.2.2.2, ?_⟩
    unfold numAt; omega
  · intro r hr
    have := pageTable_num _ _ h'.after r hr
    refine ⟨this.2.2.2, ?_⟩
    unfold numAt
    rw [List.flatten_append (L₁ := A ++ [p])] at this
    simp only [List.flatten_cons, List.flatten_nil, List.append_nil, List.length_append] at this ⊢
    omega

/-- The time of a key. -/
theorem key_time {T : Track} (K : List (List Pkt)) (g : List Pkt) (L : List (List Pkt)) (h : T.pages.flatten = K ++ g :: L) :
    keyTime (source T) (T.n + K.length) = firstTime g := by
  unfold keyTime source
  simp only
  rw [h, keyTable_append, Nat.add_sub_cancel_left, List.getElem?_append_right (by rw [keyTable_length]; omega), keyTable_length, Nat.sub_self]
  rfl

theorem firstTime_flatten {p : List (List Pkt)} (hp : p ≠ []) (h : ∀ g ∈ p, g ≠ []) : ∃ g L, p = g :: L ∧ firstTime p.flatten = firstTime g := by
  cases p with
  | nil => exact absurd rfl hp
  | cons g L => exact ⟨g, L, rfl, by rw [List.flatten_cons, firstTime_append _ _ (h g (by simp))]⟩

theorem At.keyTime {T A p B} (h : At T A p B) : keyTime (source T) (numAt T A) = firstTime p.flatten := by
  obtain ⟨g, L, hp, hg⟩ := firstTime_flatten h.pageNe h.keyNe
  rw [hg]
  exact key_time A.flatten g (L ++ B.flatten) (by rw [h.eq, hp]; simp)

end Verif.Play
