import Verif.Vod.Spec

/-!
# Lemmas on the pages of recordings
-/
namespace Verif.Vod
open Verif Verif.Page Spec

/-! ## The pages -/

/-- The record of a page with the given keys, the first of which has number `j`. -/
def recOf (j : Nat) (g : List Index.Key) : Rec :=
  ⟨(g.head?.map (·.time)).getD 0, j, g.length, (g.map (·.parts)).sum, (g.map (·.size)).sum, (g.getLast?.map (·.time)).getD 0⟩

/-- The records of all pages. -/
def recs : Nat → List (List Index.Key) → List Rec
  | _, [] => []
  | j, g :: gs => recOf j g :: recs (j + g.length) gs

theorem pages_flatten : ∀ (ks cur : List Index.Key), (pagesOf cur ks).flatten = cur ++ ks
  | [], cur => by
    unfold pagesOf
    by_cases h : cur = []
    · rw [if_pos h, h]; rfl
    · rw [if_neg h]; simp
  | k :: ks, cur => by
    unfold pagesOf
    split
    · rw [List.flatten_cons, pages_flatten ks []]; simp
    · rw [pages_flatten ks (cur ++ [k])]; simp

theorem pages_ne : ∀ (ks cur : List Index.Key), ∀ g ∈ pagesOf cur ks, g ≠ []
  | [], cur => by
    unfold pagesOf
    intro g hg
    by_cases h : cur = []
    · rw [if_pos h] at hg; cases hg
    · rw [if_neg h] at hg
      rw [List.mem_singleton.mp hg]; exact h
  | k :: ks, cur => by
    unfold pagesOf
    intro g hg
    split at hg
    · rcases List.mem_cons.mp hg with rfl | hg
      · simp
      · exact pages_ne ks [] g hg
    · exact pages_ne ks (cur ++ [k]) g hg

theorem pages_prefix : ∀ (ks cur : List Index.Key), cur ≠ [] → ∃ g rest, pagesOf cur ks = g :: rest ∧ cur <+: g
  | [], cur, h => by
    unfold pagesOf
    rw [if_neg h]
    exact ⟨cur, [], rfl, List.prefix_refl _⟩
  | k :: ks, cur, _ => by
    unfold pagesOf
    split
    · exact ⟨cur ++ [k], _, rfl, List.prefix_append _ _⟩
    · obtain ⟨g, rest, h1, h2⟩ := pages_prefix ks (cur ++ [k]) (by simp)
      exact ⟨g, rest, h1, List.IsPrefix.trans (List.prefix_append _ _) h2⟩

theorem small_prefix {a b : List Index.Key} (h : a <+: b) (hb : Small b) : Small a := by
  obtain ⟨c, rfl⟩ := h
  unfold Small at hb ⊢
  rw [List.length_append, List.map_append, List.map_append, List.sum_append, List.sum_append] at hb
  omega

theorem count_rec {j : Nat} {cur : List Index.Key} {k : Index.Key} (h : Small (cur ++ [k])) :
    count ((if cur = [] then none else some (recOf j cur)).getD ⟨k.time, j + cur.length, 0, 0, 0, 0⟩) k = recOf j (cur ++ [k]) := by
  unfold Small at h
  obtain ⟨h1, h2, h3⟩ := h
  rw [List.length_append, List.length_singleton] at h1
  rw [List.map_append, List.sum_append] at h2 h3
  simp only [List.map_cons, List.map_nil, List.sum_cons, List.sum_nil, Nat.add_zero] at h2 h3
  unfold count recOf
  cases cur with
  | nil =>
    simp only [List.map_nil, List.sum_nil, Nat.zero_add] at h2 h3
    simp [Nat.mod_eq_of_lt h2, Nat.mod_eq_of_lt h3]
  | cons x l =>
    rw [if_neg (by simp)]
    simp only [Option.getD_some]
    rw [Nat.mod_eq_of_lt h1, Nat.mod_eq_of_lt h2, Nat.mod_eq_of_lt h3, List.getLast?_concat]
    simp [Nat.add_assoc]

theorem flips_rec {j : Nat} {cur : List Index.Key} {k : Index.Key} : flips (recOf j (cur ++ [k])) k.time =
    decide ((((cur ++ [k]).map (·.size)).sum > 8388608 ∨ k.time - ((cur ++ [k]).head (by simp)).time > 60000) ∧
      k.time - ((cur ++ [k]).head (by simp)).time > 20000) := by
  have h : ((cur ++ [k]).head?.map (·.time)).getD 0 = ((cur ++ [k]).head (by simp)).time := by
    rw [List.head?_eq_some_head (by simp)]
    rfl
  unfold flips recOf
  dsimp only
  rw [h]

theorem split_recs : ∀ (ks cur : List Index.Key) (j : Nat), (∀ g ∈ pagesOf cur ks, Small g) →
    split (j + cur.length) (if cur = [] then none else some (recOf j cur)) ks = recs j (pagesOf cur ks)
  | [], cur, j, _ => by
    unfold split pagesOf
    by_cases h : cur = []
    · rw [if_pos h, if_pos h]; rfl
    · rw [if_neg h, if_neg h]; rfl
  | k :: ks, cur, j, hs => by
    have hsm : Small (cur ++ [k]) := by
      unfold pagesOf at hs
      split at hs
      · exact hs _ List.mem_cons_self
      · obtain ⟨g, rest, h1, h2⟩ := pages_prefix ks (cur ++ [k]) (by simp)
        exact small_prefix h2 (hs g (by rw [h1]; exact List.mem_cons_self))
    unfold split
    rw [count_rec hsm, flips_rec]
    unfold pagesOf at hs ⊢
    split at hs
    next hc =>
      rw [if_pos (by exact decide_eq_true hc), if_pos hc]
      have := split_recs ks [] (j + cur.length + 1) (fun g hg => hs g (List.mem_cons_of_mem _ hg))
      rw [if_pos rfl] at this
      simp only [List.length_nil, Nat.add_zero] at this
      show _ :: _ = recOf j (cur ++ [k]) :: recs (j + (cur ++ [k]).length) _
      rw [this]
      simp [Nat.add_assoc]
    next hc =>
      rw [if_neg (by simpa using hc), if_neg hc]
      have := split_recs ks (cur ++ [k]) j hs
      rw [if_neg (by simp)] at this
      rw [← this]
      simp [Nat.add_assoc]

/-- The number of the first key of page `i`. -/
def firstOf (cs : List (List Index.Key)) (i : Nat) : Nat := (cs.take i).flatten.length

theorem recs_get : ∀ (cs : List (List Index.Key)) (j i : Nat), (recs j cs)[i]? = cs[i]?.map (recOf (j + firstOf cs i))
  | [], _, _ => by simp [recs]
  | g :: cs, j, 0 => by simp [recs, firstOf]
  | g :: cs, j, i + 1 => by
    unfold recs
    rw [List.getElem?_cons_succ, recs_get cs (j + g.length) i, List.getElem?_cons_succ]
    congr 2
    unfold firstOf
    rw [List.take_succ_cons, List.flatten_cons, List.length_append]
    omega

theorem recs_length : ∀ (cs : List (List Index.Key)) (j : Nat), (recs j cs).length = cs.length
  | [], _ => rfl
  | _ :: cs, j => by unfold recs; simp [recs_length cs]

theorem firstOf_succ {cs : List (List Index.Key)} {i : Nat} {c : List Index.Key} (h : cs[i]? = some c) : firstOf cs (i + 1) = firstOf cs i + c.length := by
  unfold firstOf
  rw [List.take_add_one, h]
  simp

theorem firstOf_le (cs : List (List Index.Key)) (i : Nat) : firstOf cs i ≤ cs.flatten.length := by
  unfold firstOf
  conv => rhs; rw [← List.take_append_drop i cs, List.flatten_append, List.length_append]
  omega

theorem firstOf_mono (cs : List (List Index.Key)) {i j : Nat} (h : i ≤ j) : firstOf cs i ≤ firstOf cs j := by
  unfold firstOf
  have : cs.take i = (cs.take j).take i := by rw [List.take_take, Nat.min_eq_left h]
  rw [this]
  exact firstOf_le _ _

theorem chunk_eq {cs : List (List Index.Key)} {i : Nat} {c : List Index.Key} (h : cs[i]? = some c) :
    c = (cs.flatten.drop (firstOf cs i)).take c.length := by
  have hlt : i < cs.length := by
    rw [List.getElem?_eq_some_iff] at h
    exact h.1
  have h1 : cs.flatten = (cs.take i).flatten ++ (c ++ (cs.drop (i + 1)).flatten) := by
    conv => lhs; rw [← List.take_append_drop i cs, List.flatten_append]
    congr 1
    rw [List.drop_eq_getElem_cons hlt, List.flatten_cons]
    have : cs[i] = c := by
      rw [List.getElem?_eq_getElem hlt] at h
      exact Option.some.inj h
    rw [this]
  conv => rhs; rw [h1]
  unfold firstOf
  rw [List.drop_left, List.take_left]

/-! ## Finding pages -/

theorem page_idx (key : Nat) : ∀ (slots : List Slot) (cs : List (List Index.Key)) (j i res : Nat), slots.map (·.info) = recs j cs → cs ≠ [] → j ≤ key →
    ∃ k, pageIdx key slots i res = i + k ∧ k < cs.length ∧ j + firstOf cs k ≤ key ∧ (key < j + firstOf cs (k + 1) ∨ k + 1 = cs.length)
  | _, [], _, _, _, _, h, _ => absurd rfl h
  | [], g :: cs, j, i, res, h, _, _ => by cases h
  | s :: slots, g :: cs, j, i, res, h, _, hj => by
    unfold recs at h
    rw [List.map_cons] at h
    obtain ⟨h1, h2⟩ := List.cons.inj h
    unfold pageIdx
    rw [h1]
    rw [if_neg (by show ¬ j > key; omega)]
    by_cases hc : cs = []
    · subst hc
      refine ⟨0, ?_, by simp, ?_, .inr rfl⟩
      · have : slots = [] := by
          have hl := congrArg List.length h2
          rw [recs_length] at hl
          simpa using hl
        rw [this]; rfl
      · show j + 0 ≤ key
        omega
    · by_cases hk : key < j + g.length
      · refine ⟨0, ?_, by simp, ?_, .inl ?_⟩
        · cases slots with
          | nil => rfl
          | cons s2 rest =>
            cases cs with
            | nil => exact absurd rfl hc
            | cons g2 cs2 =>
              unfold recs at h2
              rw [List.map_cons] at h2
              unfold pageIdx
              rw [(List.cons.inj h2).1, if_pos (by show j + g.length > key; omega)]
              rfl
        · show j + 0 ≤ key
          omega
        · show key < j + firstOf (g :: cs) 1
          unfold firstOf
          simpa using hk
      · obtain ⟨k, k1, k2, k3, k4⟩ := page_idx key slots cs (j + g.length) (i + 1) i h2 hc (by omega)
        have hf : ∀ m, firstOf (g :: cs) (m + 1) = g.length + firstOf cs m := by
          intro m; unfold firstOf; simp
        refine ⟨k + 1, by rw [k1]; omega, by simp; omega, by rw [hf]; omega, ?_⟩
        rw [hf, List.length_cons]
        rcases k4 with k4 | k4
        · left; omega
        · right; omega

theorem is_buffered : ∀ (slots : List Slot) (cs : List (List Index.Key)) (j i : Nat) (sl : Slot) (key : Nat), slots.map (·.info) = recs j cs → (∀ c ∈ cs, c ≠ []) →
    slots[i]? = some sl → j + firstOf cs i ≤ key → key < j + firstOf cs (i + 1) → isBuffered key slots = decide (sl.avail ≠ 0)
  | [], _, _, _, _, _, _, _, h, _, _ => by simp at h
  | s :: slots, [], _, _, _, _, h, _, _, _, _ => by cases h
  | s :: slots, c :: cs, j, 0, sl, key, h, hn, hs, h1, h2 => by
    unfold recs at h
    rw [List.map_cons] at h
    have hi := (List.cons.inj h).1
    rw [List.getElem?_cons_zero] at hs
    cases hs
    have hc : c ≠ [] := hn c List.mem_cons_self
    have hl : 0 < c.length := List.length_pos_iff.mpr hc
    have e1 : firstOf (c :: cs) 0 = 0 := rfl
    have e2 : firstOf (c :: cs) (0 + 1) = c.length := by unfold firstOf; simp
    rw [e1] at h1
    rw [e2] at h2
    unfold isBuffered
    rw [hi, if_neg (by show ¬ j > key; omega), if_neg (by show ¬ (c.length = 0 ∨ j + c.length - 1 < key); omega)]
  | s :: slots, c :: cs, j, i + 1, sl, key, h, hn, hs, h1, h2 => by
    unfold recs at h
    rw [List.map_cons] at h
    obtain ⟨hi, ht⟩ := List.cons.inj h
    rw [List.getElem?_cons_succ] at hs
    have hf : ∀ m, firstOf (c :: cs) (m + 1) = c.length + firstOf cs m := by
      intro m; unfold firstOf; simp
    rw [hf] at h1 h2
    have ih := is_buffered slots cs (j + c.length) i sl key ht (fun x hx => hn x (List.mem_cons_of_mem _ hx)) hs (by omega) (by omega)
    unfold isBuffered
    rw [hi, if_neg (by show ¬ j > key; omega)]
    rw [if_pos (by show c.length = 0 ∨ j + c.length - 1 < key; omega)]
    exact ih

/-! ## Loading -/

theorem all_cons (size a : Nat) (c : Call) (r : List Call) : bufferAll size a (c :: r) =
    ((bufferNext size a c).1 ++ (bufferAll size (bufferNext size a c).2 r).1, (bufferAll size (bufferNext size a c).2 r).2) := by
  conv => lhs; unfold bufferAll

theorem add_parts (s : Slot) (x : List (Nat × Bytes) × Nat) : (s.add x).info = s.info ∧ (s.add x).avail = x.2 ∧ (s.add x).mem = s.mem ++ x.1 :=
  ⟨rfl, rfl, rfl⟩

theorem buffer_parts (s : Slot) (p : Pack) : (buffer s p).info = s.info ∧ (buffer s p).avail = (bufferNext s.info.size s.avail ⟨true, 0, p⟩).2 ∧
    (buffer s p).mem = s.mem ++ (bufferNext s.info.size s.avail ⟨true, 0, p⟩).1 := by
  unfold buffer
  exact add_parts _ _

theorem buffer_fold (ps : List Pack) : ∀ (s : Slot), (ps.foldl buffer s).info = s.info ∧
    (ps.foldl buffer s).avail = (bufferAll s.info.size s.avail (ps.map fun p => ⟨true, 0, p⟩)).2 ∧
    (ps.foldl buffer s).mem = s.mem ++ (bufferAll s.info.size s.avail (ps.map fun p => ⟨true, 0, p⟩)).1 := by
  induction ps with
  | nil => intro s; exact ⟨rfl, rfl, (List.append_nil _).symm⟩
  | cons p ps ih =>
    intro s
    obtain ⟨h1, h2, h3⟩ := ih (buffer s p)
    obtain ⟨b1, b2, b3⟩ := buffer_parts s p
    rw [b1, b2] at h2 h3
    rw [List.foldl_cons, List.map_cons, all_cons]
    refine ⟨by rw [h1, b1], h2, ?_⟩
    rw [h3, b3, List.append_assoc]

theorem sub_wrap {W : Nat} {size a : Nat} (h : size < W) (ha : a ≤ size) : (size + W - a) % W = size - a := by
  rw [show size + W - a = (size - a) + W from by omega, Nat.add_mod_right]
  exact Nat.mod_eq_of_lt (by omega)

theorem next_fits {size a : Nat} {p : Pack} (hs : size < 2 ^ 64) (h : a + packLen p ≤ size) : bufferNext size a ⟨true, 0, p⟩ = (stores a p, a + packLen p) := by
  have := sub_wrap hs (show a ≤ size by omega)
  unfold bufferNext
  generalize (2 : Nat) ^ 64 = W at *
  rw [if_neg (by simp)]
  dsimp only
  rw [this, if_neg (by omega)]

theorem buffer_avail (size : Nat) (hs : size < 2 ^ 64) (ps : List Pack) : ∀ avail, avail + (ps.map packLen).sum ≤ size →
    (bufferAll size avail (ps.map fun p => ⟨true, 0, p⟩)).2 = avail + (ps.map packLen).sum := by
  induction ps with
  | nil => intro a _; rfl
  | cons p ps ih =>
    intro a h
    rw [List.map_cons, List.sum_cons] at h
    rw [List.map_cons, List.map_cons, List.sum_cons]
    have h1 := next_fits (p := p) hs (by omega : a + packLen p ≤ size)
    rw [all_cons, h1]
    rw [ih (a + packLen p) (by omega)]
    omega

theorem load_run (sizes : List Nat) (stop : Nat) (ys : List Pack) (hy : ∀ p ∈ ys, stop ≤ p.time) : ∀ (xs : List Pack) (partNo last n : Nat) (s : Slot),
    (∀ p ∈ xs, p.time < stop) → (∀ p ∈ xs, last ≤ p.time) → xs.Pairwise (fun a b => a.time ≤ b.time) →
    (∀ (i : Nat) p, xs[i]? = some p → sizes.getD (partNo + i) 0 = p.data.length) →
    load sizes stop partNo last n s (xs ++ ys) = (xs.foldl buffer s, n + xs.length)
  | [], partNo, last, n, s, _, _, _, _ => by
    cases ys with
    | nil => rfl
    | cons y ys =>
      show load sizes stop partNo last n s (y :: ys) = _
      unfold load
      rw [if_pos (hy y List.mem_cons_self)]
      rfl
  | x :: xs, partNo, last, n, s, h1, h2, h3, h4 => by
    rw [List.cons_append]
    unfold load
    have ha := h1 x List.mem_cons_self
    have hb := h2 x List.mem_cons_self
    have hw : wrong sizes partNo x = false := by
      have := h4 0 x rfl
      unfold wrong
      rw [Nat.add_zero] at this
      exact decide_eq_false fun h => h.1 this.symm
    rw [if_neg (by omega), if_neg (by omega), hw]
    rw [if_neg (by simp)]
    rw [List.pairwise_cons] at h3
    rw [load_run sizes stop ys hy xs (partNo + 1) x.time (n + 1) (buffer s x) (fun p hp => h1 p (List.mem_cons_of_mem _ hp))
      (fun p hp => h3.1 p hp) h3.2 (by
        intro i p hp
        have := h4 (i + 1) p (by simpa using hp)
        rw [← this]
        congr 1
        omega)]
    rw [List.foldl_cons, List.length_cons]
    congr 1
    omega

theorem load_count (sizes : List Nat) (stop : Nat) : ∀ (xs : List Pack) (partNo last n : Nat) (s : Slot), (load sizes stop partNo last n s xs).2 ≤ n + xs.length
  | [], _, _, _, _ => Nat.le_refl _
  | x :: xs, partNo, last, n, s => by
    unfold load
    split
    · simp
    · split
      · have := load_count sizes stop xs partNo last n s
        simp only [List.length_cons]; omega
      · split
        · simp
        · have := load_count sizes stop xs (partNo + 1) x.time (n + 1) (buffer s x)
          simp only [List.length_cons]; omega

theorem drop_while {p : Pack → Bool} : ∀ (a b : List Pack), (∀ x ∈ a, p x = true) → (∀ x ∈ b, p x = false) → (a ++ b).dropWhile p = b
  | [], [], _, _ => rfl
  | [], x :: b, _, h => by
    show (x :: b).dropWhile p = _
    rw [List.dropWhile_cons_of_neg (by rw [h x List.mem_cons_self]; simp)]
  | x :: a, b, h1, h2 => by
    rw [List.cons_append, List.dropWhile_cons_of_pos (h1 x List.mem_cons_self)]
    exact drop_while a b (fun y hy => h1 y (List.mem_cons_of_mem _ hy)) h2

end Verif.Vod
