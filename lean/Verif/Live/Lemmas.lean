import Verif.Live.Group

/-! # The table of pages -/
namespace Verif.Live
open Verif.Index (Tab sub64 sub64_eq)
open Verif.Page (Pack packLen)
open Spec (keyTime bytes)

/-- The number of keys on the first `i` pages. -/
def startOf (G : List (List (List Pack))) (i : Nat) : Nat := (G.take i).flatten.length

/-- The record of the page that holds the keys `b`, the first of them the `n`-th. -/
structure RecIs (r : Rec) (n : Nat) (b : List (List Pack)) : Prop where
  firstKey : r.firstKey = n
  keyCount : r.keyCount = b.length
  avail : r.avail = bytes b.flatten
  size : r.size = pageSize
  firstTime : r.firstTime = keyTime (b.head?.getD [])
  lastKeyTime : r.lastKeyTime = keyTime (b.getLast?.getD [])

/-- The table lists the pages `G` without the first `m`. -/
structure PInv (pages : Tab Rec) (cur : Option Nat) (data : Nat → Option (List Pack)) (G : List (List (List Pack))) (m : Nat) : Prop where
  ok : pages.Ok
  del : pages.del = m
  start : pages.start = m
  fin : pages.fin = G.length
  left : G ≠ [] → m < G.length
  zero : G = [] → m = 0
  ne : ∀ b ∈ G, b ≠ []
  nek : ∀ b ∈ G, ∀ g ∈ b, g ≠ []
  recs : ∀ i b, m ≤ i → G[i]? = some b → RecIs (pages.get i) (startOf G i) b
  data : ∀ i b, m ≤ i → G[i]? = some b → data (startOf G i) = some b.flatten
  none : G = [] → cur = none
  cur : ∀ F b, G = F ++ [b] → cur = some F.flatten.length
  fill : ∀ F b g, G = F ++ [b ++ [g]] → bytes b.flatten ≤ flipSize

theorem startOf_append {F : List (List (List Pack))} {i : Nat} (h : i ≤ F.length) (x : List (List (List Pack))) : startOf (F ++ x) i = startOf F i := by
  unfold startOf; rw [List.take_append_of_le_length h]

theorem startOf_len (F : List (List (List Pack))) (x : List (List (List Pack))) : startOf (F ++ x) F.length = F.flatten.length := by
  rw [startOf_append (Nat.le_refl _)]; unfold startOf; rw [List.take_length]

theorem startOf_succ {G : List (List (List Pack))} {i : Nat} {b : List (List Pack)} (h : G[i]? = some b) : startOf G (i + 1) = startOf G i + b.length := by
  unfold startOf; rw [Index.take_flat_succ G i b h, List.length_append]

theorem startOf_mono (G : List (List (List Pack))) {i j : Nat} (h : i ≤ j) : startOf G i ≤ startOf G j := Index.take_flat_mono G h

theorem startOf_lt {G : List (List (List Pack))} (hne : ∀ b ∈ G, b ≠ []) {i j : Nat} (h : i < j) (hi : i < G.length) : startOf G i < startOf G j := by
  have h1 := startOf_succ (List.getElem?_eq_getElem hi)
  have : 0 < G[i].length := List.length_pos_iff.mpr (hne _ (List.getElem_mem hi))
  have := startOf_mono G (show i + 1 ≤ j by omega)
  omega

theorem startOf_le (G : List (List (List Pack))) (i : Nat) : startOf G i ≤ G.flatten.length := by
  rcases Nat.le_total i G.length with h | h
  · have := startOf_mono G h
    rwa [show startOf G G.length = G.flatten.length by unfold startOf; rw [List.take_length]] at this
  · unfold startOf; rw [List.take_of_length_le h]; exact Nat.le_refl _

theorem len_le {G : List (List (List Pack))} (hne : ∀ b ∈ G, b ≠ []) : G.length ≤ G.flatten.length := by
  induction G with
  | nil => simp
  | cons b r ih =>
    have := ih fun x hx => hne x (List.mem_cons_of_mem _ hx)
    have : 0 < b.length := List.length_pos_iff.mpr (hne b (by simp))
    simp only [List.length_cons, List.flatten_cons, List.length_append]; omega

/-- The last page changes. -/
theorem PInv.last {pages cur data F b m} (h : PInv pages cur data (F ++ [b]) m) {f : Rec → Rec} {b' : List (List Pack)} {data' : Nat → Option (List Pack)}
    (hr : RecIs (f (pages.get F.length)) F.flatten.length b') (hne : b' ≠ []) (hnek : ∀ g ∈ b', g ≠ []) (hd : data' F.flatten.length = some b'.flatten)
    (ho : ∀ x, x ≠ F.flatten.length → data' x = data x) (hfill : ∀ c g, b' = c ++ [g] → bytes c.flatten ≤ flipSize) :
    PInv (pages.set F.length f) cur data' (F ++ [b']) m := by
  have hm : m ≤ F.length := by have := h.left (by simp); simp at this; omega
  have hfin := h.fin; simp at hfin
  have hsl : ∀ i, i < F.length → startOf (F ++ [b']) i = startOf (F ++ [b]) i := fun i hi => by
    rw [startOf_append (by omega), startOf_append (by omega)]
  have hF : ∀ x ∈ F, x ≠ [] := fun x hx => h.ne x (by simp [hx])
  refine ⟨h.ok.set _ _, h.del, h.start, by simp [hfin], fun _ => by simp; omega, by simp, ?_, ?_, ?_, ?_, by simp, ?_, ?_⟩
  · intro x hx
    rcases List.mem_append.mp hx with hx | hx
    · exact hF x hx
    · simp at hx; subst hx; exact hne
  · intro x hx
    rcases List.mem_append.mp hx with hx | hx
    · exact h.nek x (by simp [hx])
    · simp at hx; subst hx; exact hnek
  · intro i x hi hx
    rcases Index.snoc_get hx with ⟨h1, h2⟩ | ⟨h1, h2⟩
    · have := h.recs i x hi (by rw [List.getElem?_append_left h1]; exact h2)
      rw [hsl i h1, h.ok.get_other f (by omega) ⟨by rw [h.del]; exact hi, by omega⟩ (by rw [h.del]; omega)
        (by have := h.ok.room; have := h.del; omega)]
      exact this
    · subst h2; subst h1
      rw [startOf_len, Tab.get_set]; exact hr
  · intro i x hi hx
    rcases Index.snoc_get hx with ⟨h1, h2⟩ | ⟨h1, h2⟩
    · rw [hsl i h1, ho]
      · exact h.data i x hi (by rw [List.getElem?_append_left h1]; exact h2)
      · rw [startOf_append (by omega)]
        have := startOf_lt hF h1 h1
        have h3 : startOf F F.length = F.flatten.length := by unfold startOf; rw [List.take_length]
        omega
    · subst h2; subst h1
      rw [startOf_len]; exact hd
  · intro F' b'' he
    obtain ⟨rfl, -⟩ := List.append_inj' he (by simp)
    exact h.cur F b rfl
  · intro F' c g he
    obtain ⟨rfl, hb⟩ := List.append_inj' he (by simp)
    exact hfill c g (by simpa using hb)

/-- A page more. -/
theorem PInv.push {pages p1 cur data G m} (h : PInv pages cur data G m) (s : Tab.Same pages p1) (hroom : p1.fin - p1.del < p1.n)
    (hs : G.flatten.length + 2 < 2 ^ 32) {f0 f : Rec → Rec} {b' : List (List Pack)} {data' : Nat → Option (List Pack)}
    (hr : RecIs (f (f0 (p1.get G.length))) G.flatten.length b') (hne : b' ≠ []) (hnek : ∀ g ∈ b', g ≠ []) (hd : data' G.flatten.length = some b'.flatten)
    (ho : ∀ x, x ≠ G.flatten.length → data' x = data x) (hfill : ∀ c g, b' = c ++ [g] → bytes c.flatten ≤ flipSize) :
    PInv (((p1.set G.length f0).add).set G.length f) (some G.flatten.length) data' (G ++ [b']) m := by
  have ok1 := s.ok h.ok
  have hfin := h.fin; have hdel := h.del; have hstart := h.start
  have sfin := s.fin; have sdel := s.del; have sstart := s.start
  have hgl := len_le h.ne
  have hm : m ≤ G.length := by
    by_cases hg : G = []
    · rw [h.zero hg]; omega
    · exact Nat.le_of_lt (h.left hg)
  have oks := ok1.set G.length f0
  have e := Tab.add_eq oks (by simpa using hroom) (by simp; omega)
  have oka := oks.add (by simpa using hroom) (by simp; omega)
  have hget : ∀ i, m ≤ i → i < G.length → (((p1.set G.length f0).add).set G.length f).get i = pages.get i := by
    intro i h1 h2
    rw [Tab.get_set_ne oka.pos _ (by omega) (by rw [e]; simp; omega) (by omega)]
    rw [Tab.get_add, Tab.get_set_ne ok1.pos _ (by omega) (by omega) (by omega)]
    exact s.get i (by omega) (by omega)
  refine ⟨oka.set _ _, ?_, ?_, ?_, fun _ => by simp; omega, by simp, ?_, ?_, ?_, ?_, by simp, ?_, ?_⟩
  · rw [e]; simp; omega
  · rw [e]; simp; omega
  · rw [e]; simp; omega
  · intro x hx
    rcases List.mem_append.mp hx with hx | hx
    · exact h.ne x hx
    · simp at hx; subst hx; exact hne
  · intro x hx
    rcases List.mem_append.mp hx with hx | hx
    · exact h.nek x hx
    · simp at hx; subst hx; exact hnek
  · intro i x hi hx
    rcases Index.snoc_get hx with ⟨h1, h2⟩ | ⟨h1, h2⟩
    · rw [startOf_append (by omega), hget i hi h1]; exact h.recs i x hi h2
    · subst h2; subst h1
      rw [startOf_len, Tab.get_set, Tab.get_add, Tab.get_set]; exact hr
  · intro i x hi hx
    rcases Index.snoc_get hx with ⟨h1, h2⟩ | ⟨h1, h2⟩
    · rw [startOf_append (by omega), ho]
      · exact h.data i x hi h2
      · have := startOf_lt h.ne h1 h1
        have h3 : startOf G G.length = G.flatten.length := by unfold startOf; rw [List.take_length]
        omega
    · subst h2; subst h1
      rw [startOf_len]; exact hd
  · intro F' b'' he
    obtain ⟨rfl, -⟩ := List.append_inj' he (by simp)
    rfl
  · intro F' c g he
    obtain ⟨rfl, hb⟩ := List.append_inj' he (by simp)
    exact hfill c g (by simpa using hb)

theorem packLen_pos (p : Pack) : 35 ≤ packLen p := by
  unfold packLen Dtsc.sendSize; omega

theorem bytes_append (a b : List Pack) : bytes (a ++ b) = bytes a + bytes b := by simp [bytes]

theorem bytes_pos {b : List (List Pack)} (h : b ≠ []) (hk : ∀ g ∈ b, g ≠ []) : 0 < bytes b.flatten := by
  obtain ⟨g, r, rfl⟩ : ∃ p r, b = p :: r := ⟨_, _, (List.cons_head_tail h).symm⟩
  have hg := hk g (by simp)
  obtain ⟨p, g, rfl⟩ : ∃ p r, g = p :: r := ⟨_, _, (List.cons_head_tail hg).symm⟩
  have := packLen_pos p
  simp only [List.flatten_cons, List.cons_append, bytes, List.map_cons, List.sum_cons]; omega

/-! ## Finding pages -/

theorem find_loop (t : Tab Rec) (num k i0 i : Nat) (h1 : i0 ≤ i) (h2 : i < i0 + k) (hi : (t.get i).firstKey = num)
    (hj : ∀ j, i0 ≤ j → j < i → (t.get j).firstKey ≠ num) : findLoop t num k i0 = some i := by
  induction k generalizing i0 with
  | zero => omega
  | succ k ih =>
    unfold findLoop
    by_cases e : i0 = i
    · subst e; rw [if_pos hi]
    · rw [if_neg (hj i0 (Nat.le_refl _) (by omega))]
      exact ih (i0 + 1) (by omega) (by omega) fun j h1 h2 => hj j (by omega) h2

theorem PInv.find {pages cur data G m} (h : PInv pages cur data G m) {i : Nat} (hi : m ≤ i) (hl : i < G.length) :
    findPage pages (startOf G i) = some i := by
  refine find_loop _ _ _ _ i (by rw [h.del]; exact hi) (by rw [h.del, h.fin]; omega) (h.recs i _ hi (List.getElem?_eq_getElem hl)).firstKey ?_
  intro j h1 h2
  rw [h.del] at h1
  rw [(h.recs j _ h1 (List.getElem?_eq_getElem (by omega))).firstKey]
  have := startOf_lt h.ne h2 (by omega)
  omega

/-- The page that is open is the last one. -/
theorem PInv.findLast {pages cur data F b m} (h : PInv pages cur data (F ++ [b]) m) : findPage pages F.flatten.length = some F.length := by
  have hm : m ≤ F.length := by have := h.left (by simp); simp at this; omega
  have := h.find hm (by simp)
  rwa [startOf_len] at this

/-- No page but a new one can have the next number. -/
theorem not_buffered (t : Tab Rec) (key k i : Nat) (h : ∀ j, i ≤ j → j < i + k → (t.get j).firstKey + (t.get j).keyCount ≤ key ∨ (t.get j).keyCount = 0 ∨ key < (t.get j).firstKey) :
    onPageLoop t key k i = none := by
  induction k generalizing i with
  | zero => rfl
  | succ k ih =>
    have ih := ih (i + 1) fun j h1 h2 => h j (by omega) (by omega)
    unfold onPageLoop
    dsimp only
    split
    · exact ih
    · rename_i h1
      rw [if_pos ?_]; · exact ih
      rcases h i (Nat.le_refl _) (by omega) with h | h | h
      · omega
      · exact .inl h
      · omega

end Verif.Live
