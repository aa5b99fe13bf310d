import Verif.Index.Tables

/-! # Cutting a stream into keys and fragments when a packet arrives -/
namespace Verif.Index

theorem times_le_last {l : List Packet} (h : (l.map Packet.time).Pairwise (· ≤ ·)) {q : Packet} (hq : q ∈ l) : q.time ≤ last l := by
  by_cases hl : l = []
  · subst hl; simp at hq
  obtain ⟨a, b, rfl⟩ : ∃ a b, l = a ++ [b] := ⟨_, _, (List.dropLast_concat_getLast hl).symm⟩
  rw [last_snoc]
  simp only [List.map_append, List.map_cons, List.map_nil, List.pairwise_append] at h
  rcases List.mem_append.mp hq with hq | hq
  · exact h.2.2 q.time (List.mem_map_of_mem hq) b.time (by simp)
  · simp at hq; subst hq; exact Nat.le_refl _

theorem times_snoc {l : List Packet} {p : Packet} (h : (l.map Packet.time).Pairwise (· ≤ ·)) (hp : last l ≤ p.time) :
    ((l ++ [p]).map Packet.time).Pairwise (· ≤ ·) := by
  simp only [List.map_append, List.map_cons, List.map_nil, List.pairwise_append]
  refine ⟨h, List.pairwise_singleton _ _, ?_⟩
  intro a ha b hb
  simp at hb; subst hb
  obtain ⟨q, hq, rfl⟩ := List.mem_map.mp ha
  exact Nat.le_trans (times_le_last h hq) hp

theorem snoc_get {α : Type} {K : List α} {g x : α} {k : Nat} (h : (K ++ [g])[k]? = some x) :
    (k < K.length ∧ K[k]? = some x) ∨ (k = K.length ∧ x = g) := by
  by_cases e : k < K.length
  · rw [List.getElem?_append_left e] at h; exact .inl ⟨e, h⟩
  · have : k = K.length := by
      have := (List.getElem?_eq_some_iff.mp h).1; simp at this; omega
    subst this
    simp at h; exact .inr ⟨rfl, h.symm⟩

theorem head_append {g : Group} (h : g ≠ []) (x : Group) : (g ++ x).head? = g.head? := by
  cases g with
  | nil => exact absurd rfl h
  | cons p r => rfl

theorem flat_last (F : List (List Group)) (ks : List Group) (g : Group) : (F ++ [ks ++ [g]]).flatten = F.flatten ++ ks ++ [g] := by
  simp

theorem fragFirst_last (ks : List Group) {g : Group} (h : g ≠ []) (p : Packet) : fragFirst (ks ++ [g ++ [p]]) = fragFirst (ks ++ [g]) := by
  cases ks with
  | nil => exact first_append h _
  | cons a r => rfl

/-- Another packet in the last key. -/
theorem grouped_extend {v : Bool} {m : Nat} {F : List (List Group)} {ks : List Group} {g : Group} {p : Packet}
    (h : Grouped v m (F ++ [ks ++ [g]])) (hp : ¬ Starts v (first g) p) (ht : last g ≤ p.time) :
    Grouped v m (F ++ [ks ++ [g ++ [p]]]) := by
  have hg : g ≠ [] := h.keys g (by simp)
  refine ⟨?_, ?_, ?_, ?_, ?_, ?_, ?_⟩
  · intro f hf
    rcases List.mem_append.mp hf with hf | hf
    · exact h.frags f (by simp [hf])
    · simp at hf; subst hf; simp
  · intro x hx
    rw [flat_last] at hx
    rcases List.mem_append.mp hx with hx | hx
    · exact h.keys x (by rw [flat_last]; exact List.mem_append_left _ hx)
    · simp at hx; subst hx; simp
  · intro x hx q hq
    rw [flat_last] at hx
    rcases List.mem_append.mp hx with hx | hx
    · exact h.inside x (by rw [flat_last]; exact List.mem_append_left _ hx) q hq
    · simp at hx; subst hx
      rw [first_append hg]
      rw [List.tail_append_of_ne_nil hg] at hq
      rcases List.mem_append.mp hq with hq | hq
      · exact h.inside g (by simp) q hq
      · simp at hq; subst hq; exact hp
  · intro k x y hx hy
    have hs := h.starts k
    rw [flat_last] at hx hy
    rw [flat_last] at hs
    have hk : k + 1 ≤ (F.flatten ++ ks).length := by
      have := (List.getElem?_eq_some_iff.mp hy).1; simp at this ⊢; omega
    rw [List.getElem?_append_left (by omega)] at hx
    have hs := fun y => hs x y (by rw [List.getElem?_append_left (by omega)]; exact hx)
    rcases snoc_get hy with ⟨h1, h2⟩ | ⟨h1, h2⟩
    · exact hs y (by rw [List.getElem?_append_left h1]; exact h2)
    · subst h2
      rw [head_append hg]
      exact hs g (by rw [h1]; simp)
  · intro f hf x hx
    rcases List.mem_append.mp hf with hf | hf
    · exact h.fragInside f (by simp [hf]) x hx
    · simp only [List.mem_singleton] at hf; subst hf
      rw [fragFirst_last ks hg]
      have := h.fragInside (ks ++ [g]) (by simp)
      cases ks with
      | nil => simp at hx
      | cons a r =>
        simp only [List.cons_append, List.tail_cons, List.mem_append, List.mem_singleton] at hx this
        rcases hx with hx | hx
        · exact this x (.inl hx)
        · subst hx; rw [first_append hg]; exact this g (.inr rfl)
  · intro i f e hf he
    have hs := h.fragStarts i
    have hi : i + 1 ≤ F.length := by
      have := (List.getElem?_eq_some_iff.mp he).1; simp at this; omega
    rw [List.getElem?_append_left (by omega)] at hf
    have hs := fun e => hs f e (by rw [List.getElem?_append_left (by omega)]; exact hf)
    rcases snoc_get he with ⟨h1, h2⟩ | ⟨h1, h2⟩
    · exact hs e (by rw [List.getElem?_append_left h1]; exact h2)
    · subst h2
      rw [fragFirst_last ks hg]
      exact hs (ks ++ [g]) (by rw [h1]; simp)
  · have e1 : (F ++ [ks ++ [g ++ [p]]]).flatten.flatten = (F ++ [ks ++ [g]]).flatten.flatten ++ [p] := by simp
    rw [e1]
    refine times_snoc h.times ?_
    have : (F ++ [ks ++ [g]]).flatten.flatten = (F.flatten ++ ks).flatten ++ g := by simp
    rw [this, last_append hg]; exact ht

/-- A new key in the last fragment. -/
theorem grouped_key {v : Bool} {m : Nat} {F : List (List Group)} {ks : List Group} {g : Group} {p : Packet}
    (h : Grouped v m (F ++ [ks ++ [g]])) (hp : Starts v (first g) p) (ht : last g ≤ p.time)
    (hf : p.time < fragFirst (ks ++ [g]) + m) : Grouped v m (F ++ [ks ++ [g] ++ [[p]]]) := by
  have hg : g ≠ [] := h.keys g (by simp)
  have efl : (F ++ [ks ++ [g] ++ [[p]]]).flatten = (F.flatten ++ ks ++ [g]) ++ [[p]] := by simp
  refine ⟨?_, ?_, ?_, ?_, ?_, ?_, ?_⟩
  · intro f hf
    rcases List.mem_append.mp hf with hf | hf
    · exact h.frags f (by simp [hf])
    · simp only [List.mem_singleton] at hf; subst hf; simp
  · intro x hx
    rw [efl] at hx
    rcases List.mem_append.mp hx with hx | hx
    · exact h.keys x (by rw [flat_last]; exact hx)
    · simp at hx; subst hx; simp
  · intro x hx q hq
    rw [efl] at hx
    rcases List.mem_append.mp hx with hx | hx
    · exact h.inside x (by rw [flat_last]; exact hx) q hq
    · simp at hx; subst hx; simp at hq
  · intro k x y hx hy
    have hs := h.starts k
    rw [flat_last] at hs
    rw [efl] at hx hy
    rcases snoc_get hy with ⟨h1, h2⟩ | ⟨h1, h2⟩
    · rw [List.getElem?_append_left (by omega)] at hx
      exact hs x y hx h2
    · subst h2
      rw [List.getElem?_append_left (by omega)] at hx
      have hk : k = (F.flatten ++ ks).length := by simp at h1 ⊢; omega
      subst hk
      have : x = g := by simpa using hx.symm
      subst this
      exact ⟨p, rfl, hp⟩
  · intro f hff x hx
    rcases List.mem_append.mp hff with hff | hff
    · exact h.fragInside f (by simp [hff]) x hx
    · simp only [List.mem_singleton] at hff; subst hff
      rw [fragFirst_append (by simp)]
      rw [List.tail_append_of_ne_nil (by simp)] at hx
      rcases List.mem_append.mp hx with hx | hx
      · exact h.fragInside (ks ++ [g]) (by simp) x hx
      · simp at hx; subst hx; rw [first_cons]; exact hf
  · intro i f e hff he
    have hs := h.fragStarts i
    have hi : i + 1 ≤ F.length := by
      have := (List.getElem?_eq_some_iff.mp he).1; simp at this; omega
    rw [List.getElem?_append_left (by omega)] at hff
    have hs := fun e => hs f e (by rw [List.getElem?_append_left (by omega)]; exact hff)
    rcases snoc_get he with ⟨h1, h2⟩ | ⟨h1, h2⟩
    · exact hs e (by rw [List.getElem?_append_left h1]; exact h2)
    · subst h2
      rw [fragFirst_append (by simp)]
      exact hs (ks ++ [g]) (by rw [h1]; simp)
  · have e1 : (F ++ [ks ++ [g] ++ [[p]]]).flatten.flatten = (F ++ [ks ++ [g]]).flatten.flatten ++ [p] := by simp
    rw [e1]
    refine times_snoc h.times ?_
    have : (F ++ [ks ++ [g]]).flatten.flatten = (F.flatten ++ ks).flatten ++ g := by simp
    rw [this, last_append hg]; exact ht

/-- A new fragment. -/
theorem grouped_frag {v : Bool} {m : Nat} {F : List (List Group)} {ks : List Group} {g : Group} {p : Packet}
    (h : Grouped v m (F ++ [ks ++ [g]])) (hp : Starts v (first g) p) (ht : last g ≤ p.time)
    (hf : fragFirst (ks ++ [g]) + m ≤ p.time) : Grouped v m (F ++ [ks ++ [g]] ++ [[[p]]]) := by
  have hg : g ≠ [] := h.keys g (by simp)
  have efl : (F ++ [ks ++ [g]] ++ [[[p]]]).flatten = (F.flatten ++ ks ++ [g]) ++ [[p]] := by simp
  refine ⟨?_, ?_, ?_, ?_, ?_, ?_, ?_⟩
  · intro f hf
    rcases List.mem_append.mp hf with hf | hf
    · exact h.frags f hf
    · simp only [List.mem_singleton] at hf; subst hf; simp
  · intro x hx
    rw [efl] at hx
    rcases List.mem_append.mp hx with hx | hx
    · exact h.keys x (by rw [flat_last]; exact hx)
    · simp at hx; subst hx; simp
  · intro x hx q hq
    rw [efl] at hx
    rcases List.mem_append.mp hx with hx | hx
    · exact h.inside x (by rw [flat_last]; exact hx) q hq
    · simp at hx; subst hx; simp at hq
  · intro k x y hx hy
    have hs := h.starts k
    rw [flat_last] at hs
    rw [efl] at hx hy
    rcases snoc_get hy with ⟨h1, h2⟩ | ⟨h1, h2⟩
    · rw [List.getElem?_append_left (by omega)] at hx
      exact hs x y hx h2
    · subst h2
      rw [List.getElem?_append_left (by omega)] at hx
      have hk : k = (F.flatten ++ ks).length := by simp at h1 ⊢; omega
      subst hk
      have : x = g := by simpa using hx.symm
      subst this
      exact ⟨p, rfl, hp⟩
  · intro f hff x hx
    rcases List.mem_append.mp hff with hff | hff
    · exact h.fragInside f hff x hx
    · simp only [List.mem_singleton] at hff; subst hff; simp at hx
  · intro i f e hff he
    rcases snoc_get he with ⟨h1, h2⟩ | ⟨h1, h2⟩
    · rw [List.getElem?_append_left (by omega)] at hff
      exact h.fragStarts i f e hff h2
    · subst h2
      rw [List.getElem?_append_left (by omega)] at hff
      have hk : i = F.length := by simp at h1 ⊢; omega
      subst hk
      have : f = ks ++ [g] := by simpa using hff.symm
      subst this
      exact hf
  · have e1 : (F ++ [ks ++ [g]] ++ [[[p]]]).flatten.flatten = (F ++ [ks ++ [g]]).flatten.flatten ++ [p] := by simp
    rw [e1]
    refine times_snoc h.times ?_
    have : (F ++ [ks ++ [g]]).flatten.flatten = (F.flatten ++ ks).flatten ++ g := by simp
    rw [this, last_append hg]; exact ht

/-- The first packet. -/
theorem grouped_one (v : Bool) (m : Nat) (p : Packet) : Grouped v m [[[p]]] := by
  refine ⟨by simp, by simp, by simp, ?_, by simp, ?_, by simp⟩
  · intro k g h _ hh; simp at hh
  · intro i f e _ he; simp at he

theorem grouped_nil (v : Bool) (m : Nat) : Grouped v m [] := by
  refine ⟨by simp, by simp, by simp, ?_, by simp, ?_, by simp⟩
  · intro k g h _ hh; simp at hh
  · intro i f e _ he; simp at he

end Verif.Index
