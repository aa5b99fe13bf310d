import Verif.JsonLine.Model
import Verif.SockBuf.Props

/-!
# C118: lines over TCP
-/

namespace Verif.JsonLine
open Verif SockBuf

theorem scan_nl (s : Bytes) : ∀ n j, s.length - j = n → ∀ k, j ≤ k → k + 1 < scanBlock [10] s j → s[k]? ≠ some 10 := by
  intro n
  induction n with
  | zero =>
    intro j hn k hj hk
    rw [scanBlock, dif_neg (by omega)] at hk
    omega
  | succ n ih =>
    intro j hn k hj hk
    rw [scanBlock] at hk
    by_cases h : j < s.length ∧ j < blockSize
    · rw [dif_pos h] at hk
      by_cases c : j + 1 ≥ ([10] : Bytes).length ∧ (s.drop (j + 1 - ([10] : Bytes).length)).take ([10] : Bytes).length = [10]
      · rw [if_pos c] at hk; omega
      · rw [if_neg c] at hk
        rcases Nat.lt_or_ge j k with a | a
        · exact ih (j + 1) (by omega) k a hk
        · have e : k = j := by omega
          subst e
          intro hs
          apply c
          refine ⟨by simp, ?_⟩
          have hd : s.drop (k + 1 - ([10] : Bytes).length) = s[k] :: s.drop (k + 1) := by
            rw [show k + 1 - ([10] : Bytes).length = k from rfl]
            exact List.drop_eq_getElem_cons h.1
          rw [hd]
          rw [List.getElem?_eq_getElem h.1] at hs
          rw [Option.some.inj hs]
          rfl
    · rw [dif_neg h] at hk; omega

theorem cut_nl : ∀ (n : Nat) (s : Bytes), s.length ≤ n → ∀ b ∈ cut [10] s, (10 : UInt8) ∉ b.dropLast := by
  intro n
  induction n with
  | zero =>
    intro s hs b hb
    have : s = [] := List.eq_nil_of_length_eq_zero (by omega)
    rw [cut, dif_pos (Or.inl this)] at hb
    cases hb
  | succ n ih =>
    intro s hs b hb
    rw [cut] at hb
    by_cases h : s = [] ∨ nextBlock [10] s = 0
    · rw [dif_pos h] at hb; cases hb
    · rw [dif_neg h] at hb
      have h1 : s.length ≠ 0 := fun hh => h (.inl (List.eq_nil_of_length_eq_zero hh))
      have h2 : nextBlock [10] s ≠ 0 := fun hh => h (.inr hh)
      rcases List.mem_cons.1 hb with rfl | hb
      · intro hm
        obtain ⟨k, hk⟩ := List.mem_iff_getElem?.1 hm
        have hkl : k < (s.take (nextBlock [10] s)).dropLast.length := (List.getElem?_eq_some_iff.1 hk).1
        rw [List.length_dropLast, List.length_take] at hkl
        have hk' : s[k]? = some 10 := by
          rw [List.getElem?_dropLast, if_pos (by rw [List.length_take]; omega), List.getElem?_take_of_lt (by omega)] at hk
          exact hk
        have hs' : nextBlock [10] s = scanBlock [10] s 0 := by rw [nextBlock, if_neg (by decide)]
        exact scan_nl s _ 0 rfl k (Nat.zero_le _) (by omega) hk'
      · exact ih _ (by rw [List.length_drop]; omega) b hb

theorem drain_lines (now : Nat) : ∀ (bs : List Bytes) (acc : Bytes), (10 : UInt8) ∉ acc → (∀ b ∈ bs, (10 : UInt8) ∉ b.dropLast) →
    ((drain now acc bs).1.map (·.1)).flatten ++ (drain now acc bs).2 = acc ++ bs.flatten
    ∧ (∀ p ∈ (drain now acc bs).1, p.2 = now ∧ ∃ l, (10 : UInt8) ∉ l ∧ p.1 = l ++ [10]) ∧ (10 : UInt8) ∉ (drain now acc bs).2 := by
  intro bs
  induction bs with
  | nil => intro acc h _; exact ⟨by simp [drain], (by intro p hp; cases hp), h⟩
  | cons b r ih =>
    intro acc h hb
    have hr : ∀ x ∈ r, (10 : UInt8) ∉ x.dropLast := fun x hx => hb x (by simp [hx])
    have hb0 := hb b (by simp)
    unfold drain
    rcases List.eq_nil_or_concat b with rfl | ⟨b', c, rfl⟩
    · rw [if_pos rfl]
      simpa using ih acc h hr
    · simp only [List.concat_eq_append] at hb0 ⊢
      rw [if_neg (by simp)]
      have hb' : (10 : UInt8) ∉ b' := by simpa using hb0
      by_cases hc : c = 10
      · subst hc
        rw [if_pos (by rw [← List.append_assoc]; simp)]
        obtain ⟨i1, i2, i3⟩ := ih [] (by simp) hr
        refine ⟨?_, ?_, i3⟩
        · simp only [List.map_cons, List.flatten_cons, List.append_assoc] at i1 ⊢
          rw [i1]
          simp
        · intro p hp
          rcases List.mem_cons.1 hp with rfl | hp
          · exact ⟨rfl, acc ++ b', by simp [h, hb'], by simp⟩
          · exact i2 p hp
      · rw [if_neg (by rw [← List.append_assoc]; simpa using hc)]
        have := ih (acc ++ (b' ++ [c])) (by
          simp only [List.mem_append, List.mem_singleton, not_or]
          exact ⟨h, hb', fun e => hc e.symm⟩) hr
        simpa using this

/-- What holds between calls. -/
def Inv (s : St) : Prop := s.buf = Buf.init ∧ (10 : UInt8) ∉ s.acc

theorem handle_lines (s : St) (ev : Bytes × Nat) (h : Inv s) : Inv (handle s ev).1
    ∧ ((handle s ev).2.map (·.1)).flatten ++ (handle s ev).1.acc = s.acc ++ ev.1
    ∧ ∀ p ∈ (handle s ev).2, p.2 = ev.2 ∧ ∃ l, (10 : UInt8) ∉ l ∧ p.1 = l ++ [10] := by
  unfold handle
  by_cases c : ev.1 = []
  · rw [if_pos c]; exact ⟨h, by simp [c], (by intro p hp; cases hp)⟩
  · rw [if_neg c]
    have hb : (s.buf.append ev.1).blocks = cut [10] ev.1 := by rw [h.1]; simp [Buf.append, Buf.init]
    obtain ⟨h1, h2, h3⟩ := drain_lines ev.2 (cut [10] ev.1) s.acc h.2 (cut_nl _ _ (Nat.le_refl _))
    rw [cut_flatten] at h1
    rw [hb]
    exact ⟨⟨by rw [h.1]; rfl, h3⟩, h1, h2⟩

theorem run_lines : ∀ (evs : List (Bytes × Nat)) (s : St), Inv s → Inv (run s evs).1
    ∧ ((run s evs).2.flatten.map (·.1)).flatten ++ (run s evs).1.acc = s.acc ++ (evs.map (·.1)).flatten
    ∧ (run s evs).2.length = evs.length
    ∧ (∀ k (hk : k < evs.length), ∀ p ∈ (run s evs).2.getD k [], p.2 = evs[k].2)
    ∧ ∀ p ∈ (run s evs).2.flatten, ∃ l, (10 : UInt8) ∉ l ∧ p.1 = l ++ [10] := by
  intro evs
  induction evs with
  | nil => intro s h; exact ⟨h, by simp [run], rfl, (by intro k hk; cases hk), (by intro p hp; cases hp)⟩
  | cons ev t ih =>
    intro s h
    obtain ⟨a1, a2, a3⟩ := handle_lines s ev h
    obtain ⟨b1, b2, b3, b4, b5⟩ := ih (handle s ev).1 a1
    refine ⟨b1, ?_, ?_, ?_, ?_⟩
    · simp only [run, List.flatten_cons, List.map_append, List.flatten_append, List.append_assoc, List.map_cons]
      rw [b2, ← List.append_assoc, a2, List.append_assoc]
    · simp [run, b3]
    · intro k hk p hp
      cases k with
      | zero => exact (a3 p (by simpa [run] using hp)).1
      | succ k => exact b4 k (by simpa using hk) p (by simpa [run] using hp)
    · intro p hp
      simp only [run, List.flatten_cons, List.mem_append] at hp
      rcases hp with hp | hp
      · exact (a3 p hp).2
      · exact b5 p hp

/-- C118, for any bytes cut into any reads: the packets, one after the other, and what is kept for later are the bytes that came; each packet is one line with its line feed;
what is kept has no line feed, so every complete line is a packet (after each read, as this holds for any reads); and packets have the time of the read in which their line ended. -/
theorem C118_lines (evs : List (Bytes × Nat)) :
    ((run boot evs).2.flatten.map (·.1)).flatten ++ (run boot evs).1.acc = (evs.map (·.1)).flatten
    ∧ (∀ p ∈ (run boot evs).2.flatten, ∃ l, (10 : UInt8) ∉ l ∧ p.1 = l ++ [10])
    ∧ (10 : UInt8) ∉ (run boot evs).1.acc
    ∧ (run boot evs).2.length = evs.length
    ∧ ∀ k (hk : k < evs.length), ∀ p ∈ (run boot evs).2.getD k [], p.2 = evs[k].2 := by
  obtain ⟨h1, h2, h3, h4, h5⟩ := run_lines evs boot ⟨rfl, by simp [boot]⟩
  exact ⟨by simpa [boot] using h2, h5, h1.2, h3, h4⟩

/-- Lines and what is left over determine each other: with the same bytes the packets are the same. -/
theorem lines_unique : ∀ (p q : List Bytes) (r s : Bytes), (∀ x ∈ p, ∃ l, (10 : UInt8) ∉ l ∧ x = l ++ [10]) → (∀ x ∈ q, ∃ l, (10 : UInt8) ∉ l ∧ x = l ++ [10]) →
    (10 : UInt8) ∉ r → (10 : UInt8) ∉ s → p.flatten ++ r = q.flatten ++ s → p = q ∧ r = s := by
  have first : ∀ (l m : Bytes) (a b : Bytes), (10 : UInt8) ∉ l → (10 : UInt8) ∉ m → l ++ 10 :: a = m ++ 10 :: b → l = m ∧ a = b := by
    intro l
    induction l with
    | nil =>
      intro m a b _ hm h
      cases m with
      | nil => exact ⟨rfl, by simpa using h⟩
      | cons c t => simp at h; exact absurd h.1 (fun e => hm (by simp [e]))
    | cons d t ih =>
      intro m a b hl hm h
      cases m with
      | nil => simp at h; exact absurd h.1 (fun e => hl (by simp [e]))
      | cons c u =>
        simp only [List.cons_append, List.cons.injEq] at h
        obtain ⟨e1, e2⟩ := ih u a b (fun x => hl (by simp [x])) (fun x => hm (by simp [x])) h.2
        exact ⟨by rw [h.1, e1], e2⟩
  intro p
  induction p with
  | nil =>
    intro q r s _ hq hr _ h
    cases q with
    | nil => exact ⟨rfl, by simpa using h⟩
    | cons x t =>
      obtain ⟨l, _, rfl⟩ := hq x (by simp)
      refine absurd ?_ hr
      rw [show r = ([] : List Bytes).flatten ++ r from rfl, h]
      simp
  | cons x t ih =>
    intro q r s hp hq hr hs h
    obtain ⟨l, hl, rfl⟩ := hp x (by simp)
    cases q with
    | nil =>
      refine absurd ?_ hs
      rw [show s = ([] : List Bytes).flatten ++ s from rfl, ← h]
      simp
    | cons y u =>
      obtain ⟨m, hm, rfl⟩ := hq y (by simp)
      simp only [List.flatten_cons, List.append_assoc, List.singleton_append, List.cons_append, List.nil_append] at h
      obtain ⟨e1, e2⟩ := first l m _ _ hl hm h
      obtain ⟨e3, e4⟩ := ih u r s (fun x hx => hp x (by simp [hx])) (fun x hx => hq x (by simp [hx])) hr hs e2
      exact ⟨by rw [e1, e3], e4⟩

/-- C118, cuts: how the bytes are cut into reads makes no difference to the data of the packets. -/
theorem C118_cuts (evs evs' : List (Bytes × Nat)) (h : (evs.map (·.1)).flatten = (evs'.map (·.1)).flatten) :
    (run boot evs).2.flatten.map (·.1) = (run boot evs').2.flatten.map (·.1) := by
  obtain ⟨a1, a2, a3, _⟩ := C118_lines evs
  obtain ⟨b1, b2, b3, _⟩ := C118_lines evs'
  refine (lines_unique _ _ _ _ ?_ ?_ a3 b3 (by rw [a1, b1, h])).1
  · intro x hx
    obtain ⟨p, hp, rfl⟩ := List.mem_map.1 hx
    exact a2 p hp
  · intro x hx
    obtain ⟨p, hp, rfl⟩ := List.mem_map.1 hx
    exact b2 p hp

/-- C118, there: lines that are sent, cut into any reads, are the packets. -/
theorem C118_sent (ls : List Bytes) (hl : ∀ l ∈ ls, (10 : UInt8) ∉ l) (evs : List (Bytes × Nat)) (h : (evs.map (·.1)).flatten = ls.flatMap (· ++ [10])) :
    (run boot evs).2.flatten.map (·.1) = ls.map (· ++ [10]) := by
  obtain ⟨a1, a2, a3, _⟩ := C118_lines evs
  refine (lines_unique _ (ls.map (· ++ [10])) _ [] ?_ ?_ a3 (by simp) (by rw [a1, h, List.append_nil, List.flatMap_def])).1
  · intro x hx
    obtain ⟨p, hp, rfl⟩ := List.mem_map.1 hx
    exact a2 p hp
  · intro x hx
    obtain ⟨l, hm, rfl⟩ := List.mem_map.1 hx
    exact ⟨l, hl l hm, rfl⟩

/-- Two lines in three reads, one of them cut: the hypotheses are met. -/
example : (([([0x7B], 5), ([0x7D, 10, 0x31], 6), ([10], 9)] : List (Bytes × Nat)).map (·.1)).flatten = [[0x7B, 0x7D], [0x31]].flatMap (· ++ [10]) := by decide

end Verif.JsonLine
