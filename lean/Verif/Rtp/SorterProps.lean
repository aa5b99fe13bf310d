import Verif.Rtp.SorterLemmas

/-!
# C26: packets leave the sorter in order, without duplicates or inventions

Packets carry 16-bit sequence numbers; what they stand for is a position in an unbounded stream. So every packet is
given an index by a function `idx`, of which its sequence number is the remainder modulo 65536, and the claims are
about indices. The sorter does not see them.

* `C26_safe`: any arrivals (losses, duplicates, any order) within 32762 consecutive indices.
* `C26_moves_on`, `C26_requests`: it waits for no packet for ever, and asks for none it was given.
* `C26_consecutive`, `C26_reordered`: streams of any length, as long as the sorter has no reason to give up on a packet.
* `C26_in_order`: a stream that arrives in order.
* `C26_wrap_fails`, `C26_short_fails`, `C26_skip_fails`, `C26_stale_fails`: where the code departs from the property.
-/
namespace Verif.Rtp

section
variable {P : Type} {seqOf : P → Nat} {idx : P → Nat}

theorem sorterRun_append (drop wait : Nat) (a b : List P) : ∀ s : Sorter P,
    sorterRun seqOf drop wait s (a ++ b) =
      ((sorterRun seqOf drop wait (sorterRun seqOf drop wait s a).1 b).1,
        (sorterRun seqOf drop wait s a).2.1 ++ (sorterRun seqOf drop wait (sorterRun seqOf drop wait s a).1 b).2.1,
        (sorterRun seqOf drop wait s a).2.2 ++ (sorterRun seqOf drop wait (sorterRun seqOf drop wait s a).1 b).2.2) := by
  induction a with
  | nil => intro s; rfl
  | cons p a ih =>
    intro s
    simp only [List.cons_append, sorterRun, ih, List.append_assoc]

/-- The state the first packet finds itself in. -/
def firstState (p : Nat) : Sorter P := ⟨(p - 5) % 65536, p % 65536, false, true, []⟩

theorem addPacket_first (hidx : ∀ p, seqOf p = idx p % 65536) (drop wait : Nat) (p : P) (h : 5 ≤ idx p) :
    addPacket seqOf drop wait Sorter.init p = addPacket seqOf drop wait (firstState (idx p)) p := by
  have : sorterFirst (Sorter.init (P := P)) (seqOf p) = sorterFirst (firstState (idx p)) (seqOf p) := by
    rw [hidx]
    simp only [sorterFirst, Sorter.init, firstState, if_true, Bool.false_eq_true, if_false]
    rw [show (idx p % 65536 + 65536 - 5) % 65536 = (idx p - 5) % 65536 by omega]
  unfold addPacket
  rw [this]

theorem firstState_inv (L U N : Nat) (h5 : 5 ≤ N) (hL : L ≤ N - 5) (hU : N ≤ U) :
    SortInv seqOf idx L U [] (firstState N : Sorter P) (N - 5) :=
  ⟨rfl, rfl, hL, by omega, ⟨N, rfl, by omega, hU⟩, List.Pairwise.nil, fun q h => absurd h (by simp [firstState]),
    fun q h => absurd h (by simp), fun _ q h => absurd h (by simp [firstState])⟩

theorem range'_pairwise (s n : Nat) : (List.range' s n).Pairwise (· < ·) := List.pairwise_lt_range'

/-- Any arrivals within a stretch. -/
theorem run_safe (hidx : ∀ p, seqOf p = idx p % 65536) (L U drop wait : Nat) (hU : U ≤ L + 32767) (rest : List P) :
    ∀ (arrived : List P) (s : Sorter P) (S : Nat), SortInv seqOf idx L U arrived s S →
    (∀ a ∈ rest, L ≤ idx a ∧ idx a + 1 ≤ U) →
    ∃ S', SortInv seqOf idx L U (arrived ++ rest) (sorterRun seqOf drop wait s rest).1 S' ∧ S ≤ S' ∧
      ((sorterRun seqOf drop wait s rest).2.1.map idx).Pairwise (· < ·) ∧
      (∀ q ∈ (sorterRun seqOf drop wait s rest).2.1, q ∈ arrived ++ rest ∧ S ≤ idx q ∧ idx q < S') := by
  induction rest with
  | nil =>
    intro arrived s S hi _
    exact ⟨S, by simpa [sorterRun] using hi, Nat.le_refl _, List.Pairwise.nil, fun q h => absurd h (by simp [sorterRun])⟩
  | cons p rest ih =>
    intro arrived s S hi hr
    obtain ⟨s', outs, want, e, hi', h1, h2, h3, h4, -⟩ := addPacket_step hidx L U drop wait hU arrived s S hi p
      (hr p (List.mem_cons_self ..)).1 (hr p (List.mem_cons_self ..)).2
    obtain ⟨S', g1, g2, g3, g4⟩ := ih (arrived ++ [p]) s' _ hi' (fun a h => hr a (List.mem_cons_of_mem _ h))
    rw [List.append_assoc, List.singleton_append] at g1
    have ho : ∀ q ∈ outs, skipTo idx drop s S (idx p) ≤ idx q ∧ idx q < skipTo idx drop s S (idx p) + outs.length := by
      intro q hq
      have : idx q ∈ outs.map idx := List.mem_map_of_mem hq
      rw [h3, List.mem_range'_1] at this
      exact this
    simp only [sorterRun]
    rw [e]
    refine ⟨S', g1, by omega, ?_, ?_⟩
    · simp only
      rw [List.map_append, List.pairwise_append]
      refine ⟨h3 ▸ range'_pairwise _ _, g3, ?_⟩
      intro a ha b hb
      obtain ⟨qa, hqa, rfl⟩ := List.mem_map.mp ha
      obtain ⟨qb, hqb, rfl⟩ := List.mem_map.mp hb
      have := ho qa hqa
      have := g4 qb hqb
      omega
    · intro q hq
      simp only [List.mem_append] at hq
      rcases hq with hq | hq
      · have := h4 q hq
        have := ho q hq
        refine ⟨?_, by omega, by omega⟩
        simp only [List.mem_append, List.mem_cons, List.not_mem_nil, or_false] at *
        exact (h4 q hq).imp_right Or.inl
      · obtain ⟨k1, k2, k3⟩ := g4 q hq
        rw [List.append_assoc, List.singleton_append] at k1
        exact ⟨k1, by omega, k3⟩

theorem run_init (hidx : ∀ p, seqOf p = idx p % 65536) (drop wait B : Nat) (hB : 5 ≤ B) (p : P) (arr : List P)
    (hr : ∀ a ∈ p :: arr, B ≤ idx a ∧ idx a < B + 32762) :
    sorterRun seqOf drop wait Sorter.init (p :: arr) = sorterRun seqOf drop wait (firstState (idx p)) (p :: arr) ∧
      SortInv seqOf idx (B - 5) (B + 32762) [] (firstState (idx p) : Sorter P) (idx p - 5) := by
  have := hr p (List.mem_cons_self ..)
  refine ⟨?_, firstState_inv _ _ _ (by omega) (by omega) (by omega)⟩
  simp only [sorterRun]
  rw [addPacket_first hidx drop wait p (by omega)]

/-- **C26, safety.** Whatever arrives, in whatever order, with whatever losses and duplicates, as long as it comes
from a stretch of 32762 packets (which may well cross the 16-bit boundary): the packets delivered have strictly
increasing indices, so none is delivered twice, and each of them is one that arrived. For every setting of the two
timeouts. -/
theorem C26_safe (hidx : ∀ p, seqOf p = idx p % 65536) (drop wait B : Nat) (hB : 5 ≤ B) (arr : List P)
    (hr : ∀ a ∈ arr, B ≤ idx a ∧ idx a < B + 32762) :
    ((sorterRun seqOf drop wait Sorter.init arr).2.1.map idx).Pairwise (· < ·) ∧
      ∀ q ∈ (sorterRun seqOf drop wait Sorter.init arr).2.1, q ∈ arr := by
  cases arr with
  | nil => exact ⟨List.Pairwise.nil, fun q h => absurd h (by simp [sorterRun])⟩
  | cons p arr =>
    obtain ⟨h1, h2⟩ := run_init hidx drop wait B hB p arr hr
    rw [h1]
    obtain ⟨S', -, -, g3, g4⟩ := run_safe hidx (B - 5) (B + 32762) drop wait (by omega) (p :: arr) [] _ _ h2
      (fun a h => by have := hr a h; omega)
    exact ⟨g3, fun q hq => by simpa using (g4 q hq).1⟩

/-- **C26, the sorter moves on.** Once the initial buffering is over, everything delivered from the arrival of a
packet on has an index of at least that packet's minus the drop timeout: nothing older is waited for. -/
theorem C26_moves_on (hidx : ∀ p, seqOf p = idx p % 65536) (drop wait B : Nat) (hB : 5 ≤ B) (before : List P) (p : P)
    (after : List P) (hr : ∀ a ∈ before ++ p :: after, B ≤ idx a ∧ idx a < B + 32762)
    (hpre : (sorterRun seqOf drop wait Sorter.init before).1.pre = false) :
    ∀ q ∈ (sorterRun seqOf drop wait (sorterRun seqOf drop wait Sorter.init before).1 (p :: after)).2.1,
      idx p ≤ idx q + drop := by
  cases before with
  | nil => simp [sorterRun, Sorter.init] at hpre
  | cons b0 before =>
    obtain ⟨h1, h2⟩ := run_init hidx drop wait B hB b0 before (fun a h => hr a (List.mem_append_left _ h))
    rw [h1] at hpre ⊢
    obtain ⟨S1, i1, -⟩ := run_safe hidx (B - 5) (B + 32762) drop wait (by omega) (b0 :: before) [] _ _ h2
      (fun a h => by have := hr a (List.mem_append_left _ h); omega)
    generalize (sorterRun seqOf drop wait (firstState (idx b0)) (b0 :: before)).1 = s1 at hpre i1 ⊢
    have hp := hr p (by simp)
    obtain ⟨s', outs, want, e, hi', k1, k2, k3, -⟩ := addPacket_step hidx (B - 5) (B + 32762) drop wait (by omega) _ s1 S1 i1 p
      (by omega) (by omega)
    have hT : idx p ≤ skipTo idx drop s1 S1 (idx p) + drop := by
      rw [skipTo, hpre, if_neg (by simp)]
      split <;> omega
    obtain ⟨S', -, -, -, g4⟩ := run_safe hidx (B - 5) (B + 32762) drop wait (by omega) after _ s' _ hi'
      (fun a h => by have := hr a (by simp [h]); omega)
    intro q hq
    simp only [sorterRun] at hq
    rw [e] at hq
    rcases List.mem_append.mp hq with hq | hq
    · have : idx q ∈ outs.map idx := List.mem_map_of_mem hq
      rw [k3, List.mem_range'_1] at this
      omega
    · have := (g4 q hq).2.1
      omega

/-- **C26, requests.** A packet the sorter asks for is one that has not arrived so far, and at least the reorder
timeout behind the newest arrival. -/
theorem C26_requests (hidx : ∀ p, seqOf p = idx p % 65536) (drop wait B : Nat) (hB : 5 ≤ B) (before : List P) (p : P)
    (hr : ∀ a ∈ before ++ [p], B ≤ idx a ∧ idx a < B + 32762) :
    ∀ w ∈ (addPacket seqOf drop wait (sorterRun seqOf drop wait Sorter.init before).1 p).2.2,
      ∃ i, w = i % 65536 ∧ i + wait < idx p ∧ ∀ q ∈ before, idx q ≠ i := by
  have main : ∀ s1 S1, SortInv seqOf idx (B - 5) (B + 32762) before s1 S1 →
      ∀ w ∈ (addPacket seqOf drop wait s1 p).2.2, ∃ i, w = i % 65536 ∧ i + wait < idx p ∧ ∀ q ∈ before, idx q ≠ i := by
    intro s1 S1 i1 w hw
    have hp := hr p (by simp)
    obtain ⟨s', outs, want, e, -, -, -, -, -, h, -⟩ := addPacket_step hidx (B - 5) (B + 32762) drop wait (by omega) _ s1 S1 i1 p
      (by omega) (by omega)
    rw [e] at hw
    obtain ⟨i, a, b, c, d⟩ := h w hw
    exact ⟨i, a, c, d⟩
  cases before with
  | nil =>
    have hp := hr p (by simp)
    simp only [sorterRun]
    rw [addPacket_first hidx drop wait p (by omega)]
    exact main _ _ (firstState_inv _ _ _ (by omega) (by omega) (by omega))
  | cons b0 before =>
    obtain ⟨h1, h2⟩ := run_init hidx drop wait B hB b0 before (fun a h => hr a (List.mem_append_left _ h))
    rw [h1]
    obtain ⟨S1, i1, -⟩ := run_safe hidx (B - 5) (B + 32762) drop wait (by omega) (b0 :: before) [] _ _ h2
      (fun a h => by have := hr a (List.mem_append_left _ h); omega)
    exact main _ _ (by simpa using i1)

/-- One arrival after the initial buffering, in a stream of any length: the window moves along. -/
theorem step_window (hidx : ∀ p, seqOf p = idx p % 65536) (drop wait : Nat) (hd : drop ≤ 16000)
    (arrived : List P) (s : Sorter P) (S : Nat) (hi : SortInv seqOf idx (S - 16000) (S + drop + 1) arrived s S)
    (hst : ∀ q ∈ s.buf, S ≤ idx q) (p : P) (h1 : idx p ≤ S + drop) (h2 : S ≤ idx p + 16000)
    (hskip : skipTo idx drop s S (idx p) = S) :
    ∃ s' outs want, addPacket seqOf drop wait s p = (s', outs, want) ∧
      SortInv seqOf idx (S + outs.length - 16000) (S + outs.length + drop + 1) (arrived ++ [p]) s' (S + outs.length) ∧
      (∀ q ∈ s'.buf, S + outs.length ≤ idx q) ∧
      outs.map idx = List.range' S outs.length ∧ (∀ q ∈ outs, q ∈ arrived ++ [p]) ∧
      (∀ i, S ≤ i → (∀ j, S ≤ j → j ≤ i → ∃ q ∈ arrived, idx q = j) → i < S + outs.length) ∧
      s'.pre = (s.pre && !decide (5 ≤ s.buf.length)) := by
  obtain ⟨s', outs, want, e, hi', -, -, h3, h4, -, h6, h7, h8, -⟩ := addPacket_step hidx (S - 16000) (S + drop + 1) drop wait (by omega)
    arrived s S hi p (by omega) (by omega)
  rw [hskip] at hi' h3 h6 h7
  have h7 := h7 hst
  refine ⟨s', outs, want, e, ?_, h7, h3, h4, h6, h8⟩
  obtain ⟨W, hw1, hw2, hw3⟩ := hi'.wseq
  exact ⟨hi'.first, hi'.seq, by omega, by omega, ⟨W, hw1, hw2, by omega⟩, hi'.sorted,
    fun q hq => ⟨(hi'.mem q hq).1, by have := h7 q hq; omega, by have := (hi'.mem q hq).2; omega⟩, hi'.comp, hi'.pre⟩

/-- Arrivals after the initial buffering. `n` packets, from index `i0` on, have been delivered so far. -/
theorem run_window (hidx : ∀ p, seqOf p = idx p % 65536) (drop wait i0 : Nat) (hd : drop ≤ 16000) (rest : List P) :
    ∀ (arrived : List P) (s : Sorter P) (n : Nat),
    SortInv seqOf idx (i0 + n - 16000) (i0 + n + drop + 1) arrived s (i0 + n) →
    (∀ q ∈ s.buf, i0 + n ≤ idx q) → s.pre = false →
    (∀ pre a post, rest = pre ++ a :: post →
      idx a ≤ i0 + n + (sorterRun seqOf drop wait s pre).2.1.length + drop ∧
      i0 + n + (sorterRun seqOf drop wait s pre).2.1.length ≤ idx a + 16000) →
    (sorterRun seqOf drop wait s rest).2.1.map idx = List.range' (i0 + n) (sorterRun seqOf drop wait s rest).2.1.length ∧
    (∀ q ∈ (sorterRun seqOf drop wait s rest).2.1, q ∈ arrived ++ rest) ∧
    (∀ pre a, rest = pre ++ [a] → ∀ m, i0 + n ≤ m → (∀ i, i0 + n ≤ i → i ≤ m → ∃ q ∈ arrived ++ pre, idx q = i) →
      m < i0 + n + (sorterRun seqOf drop wait s rest).2.1.length) := by
  induction rest with
  | nil =>
    intro arrived s n hi hst hpre _
    exact ⟨rfl, fun q h => absurd h (by simp [sorterRun]), fun pre a h => absurd h (by simp)⟩
  | cons p rest ih =>
    intro arrived s n hi hst hpre hr
    obtain ⟨hp1, hp2⟩ := hr [] p rest rfl
    simp only [sorterRun, List.length_nil, Nat.add_zero] at hp1 hp2
    obtain ⟨s', outs, want, e, hi', hst', h3, h4, h5, h6⟩ := step_window hidx drop wait hd arrived s (i0 + n) hi hst p hp1 hp2
      (by rw [skipTo, hpre, if_neg (by simp), if_neg (by omega)])
    rw [hpre] at h6
    rw [Nat.add_assoc i0] at hi' hst'
    obtain ⟨g1, g2, g3⟩ := ih (arrived ++ [p]) s' (n + outs.length) hi' hst' (by simpa using h6) (by
      intro pre a post heq
      have := hr (p :: pre) a post (by rw [heq]; rfl)
      simp only [sorterRun] at this
      rw [e] at this
      simp only [List.length_append] at this
      omega)
    simp only [sorterRun]
    rw [e]
    simp only [List.map_append, List.length_append]
    refine ⟨?_, ?_, ?_⟩
    · rw [h3, g1, ← Nat.add_assoc i0]
      exact List.range'_append_1
    · intro q hq
      rcases List.mem_append.mp hq with hq | hq
      · have := h4 q hq
        simp only [List.mem_append, List.mem_cons, List.not_mem_nil, or_false] at this ⊢
        exact this.imp_right Or.inl
      · have := g2 q hq
        simp only [List.mem_append, List.mem_cons, List.not_mem_nil, or_false, or_assoc] at this ⊢
        exact this
    · intro pre a heq m hm hall
      cases pre with
      | nil =>
        have := h5 m hm (fun j h1 h2 => by simpa using hall j h1 h2)
        omega
      | cons b pre =>
        injection heq with hb heq
        subst hb
        by_cases hm2 : i0 + (n + outs.length) ≤ m
        · have := g3 pre a heq m hm2 (fun i h1 h2 => by
            obtain ⟨q, hq, hqi⟩ := hall i (by omega) h2
            exact ⟨q, by simpa using hq, hqi⟩)
          omega
        · omega

theorem sorted_ext {l : List P} (f : P → Nat) {m : Nat} (h : l.Pairwise fun a b => f a < f b) (hm : ∃ q ∈ l, f q = m)
    (hmin : ∀ q ∈ l, m ≤ f q) : ∃ q r, l = q :: r ∧ f q = m := by
  cases l with
  | nil => obtain ⟨q, hq, -⟩ := hm; exact absurd hq (by simp)
  | cons q r =>
    refine ⟨q, r, rfl, ?_⟩
    obtain ⟨a, ha, hfa⟩ := hm
    have h1 := hmin q (List.mem_cons_self ..)
    rcases List.mem_cons.mp ha with rfl | ha
    · exact hfa
    · have := (List.pairwise_cons.mp h).1 a ha
      omega

/-- The first five packets, all different, are kept. -/
theorem bufPut_length (p : P) (buf : List P) (h : ∀ q ∈ buf, seqOf q ≠ seqOf p) : (bufPut seqOf p buf).length = buf.length + 1 := by
  induction buf with
  | nil => rfl
  | cons r buf ih =>
    unfold bufPut
    split
    · rfl
    · rw [if_neg (fun e => h r (List.mem_cons_self ..) e.symm), List.length_cons, ih (fun q hq => h q (List.mem_cons_of_mem _ hq)), List.length_cons]

theorem run_pre (hidx : ∀ p, seqOf p = idx p % 65536) (drop wait L U S : Nat) (hU : U ≤ L + 32767) (ini : List P) :
    ∀ (arrived : List P) (s : Sorter P), SortInv seqOf idx L U arrived s S → s.pre = true →
    s.buf.length = arrived.length → arrived.length + ini.length ≤ 5 → ((arrived ++ ini).map idx).Nodup →
    (∀ a ∈ arrived ++ ini, S < idx a ∧ idx a + 1 ≤ U) →
    ∃ s' want, sorterRun seqOf drop wait s ini = (s', [], want) ∧ SortInv seqOf idx L U (arrived ++ ini) s' S ∧ s'.pre = true ∧
      s'.buf.length = arrived.length + ini.length := by
  induction ini with
  | nil =>
    intro arrived s hi hpre hlen _ _ _
    exact ⟨s, [], rfl, by simpa using hi, hpre, by simpa using hlen⟩
  | cons p ini ih =>
    intro arrived s hi hpre hlen h5 hnd hr
    rw [List.length_cons] at h5
    have hlo := hi.lo
    have hp := hr p (by simp)
    have hT : skipTo idx drop s S (idx p) = S := by
      rw [skipTo, hpre, if_pos rfl, if_neg (by omega)]
    obtain ⟨s', outs, want, e, hi', -, -, h3, h4, -, -, -, h8, -⟩ := addPacket_step hidx L U drop wait hU arrived s S hi p
      (by omega) hp.2
    rw [hT] at hi' h3
    have hout : outs = [] := by
      cases outs with
      | nil => rfl
      | cons q r =>
        exfalso
        have h := h4 q (List.mem_cons_self ..)
        have h' := hr q (by
          simp only [List.mem_append, List.mem_cons, List.not_mem_nil, or_false] at h ⊢
          exact h.imp_right Or.inl)
        rw [List.map_cons, List.length_cons, List.range'_succ] at h3
        injection h3 with h3
        omega
    subst hout
    rw [hpre, show (decide (5 ≤ s.buf.length)) = false from decide_eq_false (by omega)] at h8
    -- the buffer grew by one
    have hne : ∀ q ∈ s.buf, idx q ≠ idx p := by
      intro q hq hqi
      have hq' := (hi.mem q hq).1
      rw [List.map_append, List.map_cons, List.nodup_append] at hnd
      exact hnd.2.2 (idx q) (List.mem_map_of_mem hq') (idx p) (List.mem_cons_self ..) hqi
    have hgrow : s'.buf.length = s.buf.length + 1 := by
      have hskip : sorterSkip seqOf drop (sorterFirst s (seqOf p)) (seqOf p) = s := by
        rw [sorterFirst, hi.first, if_neg (by simp), sorterSkip, hpre, if_pos rfl, if_neg (by omega)]
      have hbuf1 : (sorterWanted s).buf = s.buf := by unfold sorterWanted; split <;> rfl
      have hseq1 : (sorterWanted s).seq = s.seq := by unfold sorterWanted; split <;> rfl
      have hs' : s' = (addPacket seqOf drop wait s p).1 := by rw [e]
      obtain ⟨dout, buf', f1, f2, f3, f4, f5, f6, f7, f8⟩ := drain_eq hidx L U hU s.buf.length S s.buf (Nat.le_refl _) hlo hi.hi
        (fun q h => (hi.mem q h).2)
      have hd0 : dout = [] := by
        cases dout with
        | nil => rfl
        | cons q r =>
          exfalso
          have h' := hr q (List.mem_append_left _ (hi.mem q (f3 q (List.mem_cons_self ..))).1)
          rw [List.map_cons, List.length_cons, List.range'_succ] at f2
          injection f2 with f2
          omega
      subst hd0
      have hbuf' : buf' = s.buf := by
        refine f4.eq_of_length_le ?_
        have : ∀ q ∈ s.buf, q ∈ buf' := fun q hq => (f6 q hq).resolve_right (by simp only [List.length_nil]; omega)
        cases hfuel : s.buf.length with
        | zero => omega
        | succ k =>
          rw [hfuel, drain] at f1
          cases hf : s.buf.find? fun q => seqOf q == S % 65536 with
          | none =>
            rw [hf] at f1
            have := (Prod.mk.inj (Prod.mk.inj f1).2).2
            rw [← this, hfuel]
            exact Nat.le_refl _
          | some q =>
            rw [hf] at f1
            exact absurd (Prod.mk.inj f1).1 (by simp)
      subst hbuf'
      rw [hs']
      unfold addPacket
      simp only [hskip, hbuf1, hseq1, hi.seq, f1]
      unfold sorterPlace
      simp only [List.length_nil, Nat.add_zero]
      rw [if_neg (by
        intro h
        rw [hidx] at h
        have := mod_inj (L := L) (U := U) ⟨by omega, by omega⟩ ⟨hlo, hi.hi⟩ hU h
        omega), hidx p, d16_eq _ _ (by have := hi.hi; omega) (by omega), if_pos (by omega)]
      have : ∀ t : Sorter P, (sorterWanted t).buf = t.buf := by intro t; unfold sorterWanted; split <;> rfl
      rw [this]
      simp only
      exact bufPut_length _ _ (fun q hq h => hne q hq (by
        rw [hidx, hidx] at h
        exact mod_inj (L := L) (U := U) (by have := (hi.mem q hq).2; omega) ⟨by omega, by omega⟩ hU h))
    obtain ⟨s2, want2, g1, g2, g3, g4⟩ := ih (arrived ++ [p]) s' hi' (by simpa using h8) (by
        rw [hgrow, hlen, List.length_append]; rfl) (by rw [List.length_append, List.length_singleton]; omega) (by simpa using hnd)
      (by simpa using hr)
    refine ⟨s2, want ++ want2, ?_, by simpa using g2, g3, ?_⟩
    · simp only [sorterRun]
      rw [e]
      simp only
      rw [g1]
      rfl
    · rw [g4, List.length_append, List.length_singleton, List.length_cons]
      omega

/-- **C26, streams of any length.** Five different packets `ini` come first, the lowest with index `i0`; none of them
is on the other side of the 16-bit boundary, and the very first one is at most four ahead of the lowest. After that
anything may arrive, in any order and any number of times, as long as no packet is more than the drop timeout ahead of
the ones delivered so far (and none more than 16000 behind). Then the packets delivered are exactly consecutive from
`i0` on, each one that arrived, for ever; and as soon as something arrives after all packets up to `m`, all of these
have been delivered. -/
theorem C26_consecutive (hidx : ∀ p, seqOf p = idx p % 65536) (drop wait i0 : Nat) (hd : drop ≤ 16000)
    (p0 : P) (ini rest : List P) (hlen : (p0 :: ini).length = 5) (hnd : ((p0 :: ini).map idx).Nodup)
    (hmin : ∃ a ∈ p0 :: ini, idx a = i0)
    (hini : ∀ a ∈ p0 :: ini, i0 ≤ idx a ∧ idx a ≤ i0 + drop ∧ idx a / 65536 = i0 / 65536)
    (hfirst : 5 ≤ idx p0 ∧ idx p0 ≤ i0 + 4)
    (hr : ∀ pre a post, rest = pre ++ a :: post →
      idx a ≤ i0 + (sorterRun seqOf drop wait Sorter.init (p0 :: ini ++ pre)).2.1.length + drop ∧
      i0 + (sorterRun seqOf drop wait Sorter.init (p0 :: ini ++ pre)).2.1.length ≤ idx a + 16000) :
    (sorterRun seqOf drop wait Sorter.init (p0 :: ini ++ rest)).2.1.map idx =
      List.range' i0 (sorterRun seqOf drop wait Sorter.init (p0 :: ini ++ rest)).2.1.length ∧
    (∀ q ∈ (sorterRun seqOf drop wait Sorter.init (p0 :: ini ++ rest)).2.1, q ∈ p0 :: ini ++ rest) ∧
    (∀ pre a, rest = pre ++ [a] → ∀ m, (∀ i, i0 ≤ i → i ≤ m → ∃ q ∈ p0 :: ini ++ pre, idx q = i) →
      m < i0 + (sorterRun seqOf drop wait Sorter.init (p0 :: ini ++ rest)).2.1.length ∨ m < i0) := by
  have hp0 := hini p0 (List.mem_cons_self ..)
  -- the first five
  have hrun : ∀ l, sorterRun seqOf drop wait Sorter.init (p0 :: l) = sorterRun seqOf drop wait (firstState (idx p0)) (p0 :: l) := by
    intro l
    simp only [sorterRun]
    rw [addPacket_first hidx drop wait p0 hfirst.1]
  obtain ⟨s5, want5, e5, hi5, hpre5, hlen5⟩ := run_pre hidx drop wait (idx p0 - 5) (i0 + drop + 1) (idx p0 - 5) (by omega)
    (p0 :: ini) [] (firstState (idx p0)) (firstState_inv _ _ _ hfirst.1 (Nat.le_refl _) (by omega)) rfl rfl
    (by rw [hlen]; exact Nat.le_refl _) (by simpa using hnd) (fun a ha => by
      have := hini a (by simpa using ha)
      omega)
  simp only [List.nil_append, List.length_nil, Nat.zero_add] at hi5 hlen5
  rw [hlen] at hlen5
  have hmem5 : ∀ q ∈ s5.buf, i0 ≤ idx q ∧ idx q ≤ i0 + drop ∧ idx q / 65536 = i0 / 65536 := fun q hq => hini q (hi5.mem q hq).1
  obtain ⟨q0, r0, hb0, hq0⟩ := sorted_ext seqOf (m := i0 % 65536) hi5.sorted (by
      obtain ⟨a, ha, hai⟩ := hmin
      obtain ⟨r, hr1, hr2⟩ := hi5.comp a ha (by have := hini a ha; omega)
      exact ⟨r, hr1, by rw [hidx, hr2, hai]⟩) (fun q hq => by
      have := hmem5 q hq
      rw [hidx]
      omega)
  have hq0i : idx q0 = i0 := by
    have h1 := hmem5 q0 (by rw [hb0]; simp)
    rw [hidx] at hq0
    omega
  have happ : ∀ l, sorterRun seqOf drop wait Sorter.init (p0 :: ini ++ l) = ((sorterRun seqOf drop wait s5 l).1,
      (sorterRun seqOf drop wait s5 l).2.1, want5 ++ (sorterRun seqOf drop wait s5 l).2.2) := by
    intro l
    rw [List.cons_append, hrun, ← List.cons_append, sorterRun_append, e5]
    rfl
  simp only [happ] at hr ⊢
  cases rest with
  | nil =>
    exact ⟨rfl, fun q h => absurd h (by simp [sorterRun]), fun pre a h => absurd h (by simp)⟩
  | cons p rest =>
    obtain ⟨h1, h2⟩ := hr [] p rest rfl
    simp only [sorterRun, List.length_nil, Nat.add_zero] at h1 h2
    have hT : skipTo idx drop s5 (idx p0 - 5) (idx p) = i0 := by
      rw [skipTo, hpre5, if_pos rfl, if_pos (by omega), hb0]
      exact hq0i
    -- leaving the initial buffering
    obtain ⟨W, hw1, hw2, hw3⟩ := hi5.wseq
    have hi5' : SortInv seqOf idx (min (idx p0 - 5) (i0 - 16000)) (i0 + drop + 1) (p0 :: ini) s5 (idx p0 - 5) :=
      ⟨hi5.first, hi5.seq, Nat.min_le_left .., hi5.hi, ⟨W, hw1, hw2, hw3⟩, hi5.sorted,
        fun q hq => ⟨(hi5.mem q hq).1, by have := hmem5 q hq; omega, by have := hmem5 q hq; omega⟩, hi5.comp, hi5.pre⟩
    obtain ⟨s', outs, want, e, hi', -, -, g3, g4, -, g6, g7, g8, -⟩ := addPacket_step hidx _ _ drop wait (by omega) _ s5 _ hi5' p
      (by omega) (by omega)
    rw [hT] at hi' g3 g6 g7
    have g7 := g7 (fun q hq => (hmem5 q hq).1)
    rw [hpre5, show (decide (5 ≤ s5.buf.length)) = true from decide_eq_true (by omega)] at g8
    obtain ⟨W', hw1', hw2', hw3'⟩ := hi'.wseq
    have hi'' : SortInv seqOf idx (i0 + outs.length - 16000) (i0 + outs.length + drop + 1) (p0 :: ini ++ [p]) s' (i0 + outs.length) :=
      ⟨hi'.first, hi'.seq, by omega, by omega, ⟨W', hw1', hw2', by omega⟩, hi'.sorted,
        fun q hq => ⟨(hi'.mem q hq).1, by have := g7 q hq; omega, by have := (hi'.mem q hq).2; omega⟩, hi'.comp, hi'.pre⟩
    obtain ⟨k1, k2, k3⟩ := run_window hidx drop wait i0 hd rest (p0 :: ini ++ [p]) s' outs.length hi'' g7 (by simpa using g8) (by
      intro pre a post heq
      have := hr (p :: pre) a post (by rw [heq]; rfl)
      simp only [sorterRun] at this
      rw [e] at this
      simp only [List.length_append] at this
      omega)
    simp only [sorterRun]
    rw [e]
    simp only [List.map_append, List.length_append]
    refine ⟨?_, ?_, ?_⟩
    · rw [g3, k1]
      exact List.range'_append_1
    · intro q hq
      rcases List.mem_append.mp hq with hq | hq
      · have := g4 q hq
        simp only [List.mem_append, List.mem_cons, List.not_mem_nil, or_false] at this ⊢
        rcases this with h | h
        · exact Or.inl h
        · exact Or.inr (Or.inl h)
      · have := k2 q hq
        simp only [List.mem_append, List.mem_cons, List.not_mem_nil, or_false, or_assoc] at this ⊢
        exact this
    · intro pre a heq m hall
      by_cases hm : m < i0
      · exact Or.inr hm
      refine Or.inl ?_
      cases pre with
      | nil =>
        have := g6 m (by omega) (fun j h1 h2 => by simpa using hall j h1 h2)
        omega
      | cons b pre =>
        injection heq with hb heq
        subst hb
        by_cases hm2 : i0 + outs.length ≤ m
        · have := k3 pre a heq m hm2 (fun i h1 h2 => by
            obtain ⟨q, hq, hqi⟩ := hall i (by omega) h2
            exact ⟨q, by simpa using hq, hqi⟩)
          omega
        · omega

/-- **C26, reordered streams.** A stream of any length from which nothing is missing and in which every packet arrives at
most `d` places from where it belongs, with `2 d + 1` (and `d + 5`) not above the drop timeout, comes out completely and in
order, except for what may still be waiting at the end: at most `d + 1` packets. As in `C26_consecutive` the lowest
packet is among the first five. -/
theorem C26_reordered (hidx : ∀ p, seqOf p = idx p % 65536) (drop wait i0 d : Nat) (hd : drop ≤ 16000) (hd2 : 2 * d + 1 ≤ drop)
    (hd5 : d + 5 ≤ drop) (p0 : P) (ini rest : List P) (hlen : (p0 :: ini).length = 5) (hnd : ((p0 :: ini).map idx).Nodup)
    (hmin : ∃ a ∈ p0 :: ini, idx a = i0) (hini : ∀ a ∈ p0 :: ini, i0 ≤ idx a ∧ idx a / 65536 = i0 / 65536)
    (hfirst : 5 ≤ idx p0 ∧ idx p0 ≤ i0 + 4)
    (hplace : ∀ j q, (p0 :: ini ++ rest)[j]? = some q → idx q ≤ i0 + j + d ∧ i0 + j ≤ idx q + d)
    (hall : ∀ i, i0 ≤ i → i < i0 + (p0 :: ini ++ rest).length → ∃ q ∈ p0 :: ini ++ rest, idx q = i) :
    ∃ n, (sorterRun seqOf drop wait Sorter.init (p0 :: ini ++ rest)).2.1.map idx = List.range' i0 n ∧
      (∀ q ∈ (sorterRun seqOf drop wait Sorter.init (p0 :: ini ++ rest)).2.1, q ∈ p0 :: ini ++ rest) ∧
      (rest ≠ [] → (p0 :: ini ++ rest).length ≤ n + d + 1) := by
  have hini' : ∀ a ∈ p0 :: ini, i0 ≤ idx a ∧ idx a ≤ i0 + drop ∧ idx a / 65536 = i0 / 65536 := by
    intro a ha
    obtain ⟨j, hj, hja⟩ := List.mem_iff_getElem.mp ha
    have h1 := hini a ha
    have h2 := (hplace j a (by rw [List.getElem?_append_left hj, List.getElem?_eq_getElem hj, hja])).1
    rw [hlen] at hj
    omega
  have hcons := fun rest hr => C26_consecutive (seqOf := seqOf) hidx drop wait i0 hd p0 ini rest hlen hnd hmin hini' hfirst hr
  -- what has been delivered after the packets `pre`
  have lower : ∀ pre b post, rest = pre ++ [b] ++ post →
      (∀ pre' a post', pre ++ [b] = pre' ++ a :: post' →
        idx a ≤ i0 + (sorterRun seqOf drop wait Sorter.init (p0 :: ini ++ pre')).2.1.length + drop ∧
        i0 + (sorterRun seqOf drop wait Sorter.init (p0 :: ini ++ pre')).2.1.length ≤ idx a + 16000) →
      5 + pre.length ≤ (sorterRun seqOf drop wait Sorter.init (p0 :: ini ++ (pre ++ [b]))).2.1.length + d := by
    intro pre b post heq hr
    obtain ⟨-, -, h3⟩ := hcons (pre ++ [b]) hr
    refine Nat.le_of_not_lt fun hlt => ?_
    have hm := h3 pre b rfl (i0 + (4 + pre.length - d)) (by
      intro i hi1 hi2
      obtain ⟨q, hq, hqi⟩ := hall i hi1 (by
        rw [List.length_append, hlen, heq]
        simp only [List.length_append, List.length_singleton]
        omega)
      obtain ⟨k, hk, hkq⟩ := List.mem_iff_getElem.mp hq
      have h2 := (hplace k q (by rw [List.getElem?_eq_getElem hk, hkq])).2
      have hk5 : k < (p0 :: ini ++ pre).length := by
        rw [List.length_append, hlen]
        omega
      refine ⟨q, ?_, hqi⟩
      rw [List.mem_iff_getElem]
      refine ⟨k, hk5, ?_⟩
      rw [← hkq]
      have : p0 :: ini ++ rest = (p0 :: ini ++ pre) ++ ([b] ++ post) := by rw [heq]; simp
      simp only [this]
      rw [List.getElem_append_left hk5])
    omega
  have upper : ∀ pre post, rest = pre ++ post →
      (∀ pre' a post', pre = pre' ++ a :: post' →
        idx a ≤ i0 + (sorterRun seqOf drop wait Sorter.init (p0 :: ini ++ pre')).2.1.length + drop ∧
        i0 + (sorterRun seqOf drop wait Sorter.init (p0 :: ini ++ pre')).2.1.length ≤ idx a + 16000) →
      (sorterRun seqOf drop wait Sorter.init (p0 :: ini ++ pre)).2.1.length ≤ 5 + pre.length + d := by
    intro pre post heq hr
    obtain ⟨h1, h2, -⟩ := hcons pre hr
    generalize (sorterRun seqOf drop wait Sorter.init (p0 :: ini ++ pre)).2.1 = outs at h1 h2 ⊢
    refine Nat.le_of_not_lt fun hlt => ?_
    have : i0 + (outs.length - 1) ∈ outs.map idx := by
      rw [h1, List.mem_range'_1]
      omega
    obtain ⟨q, hq, hqi⟩ := List.mem_map.mp this
    obtain ⟨k, hk, hkq⟩ := List.mem_iff_getElem.mp (h2 q hq)
    have h3 := (hplace k q (by
      rw [heq, ← List.append_assoc, List.getElem?_append_left hk, List.getElem?_eq_getElem hk, hkq])).1
    rw [List.length_append, hlen] at hk
    omega
  have hr : ∀ (n : Nat) pre a post, pre.length = n → rest = pre ++ a :: post →
      idx a ≤ i0 + (sorterRun seqOf drop wait Sorter.init (p0 :: ini ++ pre)).2.1.length + drop ∧
      i0 + (sorterRun seqOf drop wait Sorter.init (p0 :: ini ++ pre)).2.1.length ≤ idx a + 16000 := by
    intro n
    induction n using Nat.strongRecOn with
    | _ n ih =>
      intro pre a post hn heq
      have hr' : ∀ pre' a' post', pre = pre' ++ a' :: post' →
          idx a' ≤ i0 + (sorterRun seqOf drop wait Sorter.init (p0 :: ini ++ pre')).2.1.length + drop ∧
          i0 + (sorterRun seqOf drop wait Sorter.init (p0 :: ini ++ pre')).2.1.length ≤ idx a' + 16000 := by
        intro pre' a' post' hp
        refine ih pre'.length ?_ pre' a' (post' ++ a :: post) rfl (by rw [heq, hp]; simp)
        rw [← hn, hp, List.length_append, List.length_cons]
        omega
      have hu := upper pre (a :: post) heq hr'
      have hpa := hplace (5 + pre.length) a (by
        rw [heq, ← List.append_assoc, List.getElem?_append_right (by rw [List.length_append, hlen]; exact Nat.le_refl _), List.length_append, hlen]
        simp)
      refine ⟨?_, by omega⟩
      by_cases hpre : pre = []
      · subst hpre
        simp only [List.length_nil] at hpa
        omega
      · have hsplit : pre = pre.dropLast ++ [pre.getLast hpre] := (List.dropLast_concat_getLast hpre).symm
        have hl := lower pre.dropLast (pre.getLast hpre) (a :: post) (by rw [← hsplit, heq]) (by rw [← hsplit]; exact hr')
        rw [← hsplit, List.length_dropLast] at hl
        have : 0 < pre.length := List.length_pos_iff.mpr hpre
        omega
  obtain ⟨h1, h2, -⟩ := hcons rest (fun pre a post h => hr _ pre a post rfl h)
  refine ⟨_, h1, h2, ?_⟩
  intro hne
  have hsplit : rest = rest.dropLast ++ [rest.getLast hne] := (List.dropLast_concat_getLast hne).symm
  have hl := lower rest.dropLast (rest.getLast hne) [] (by rw [List.append_nil]; exact hsplit) (fun pre' a post' h =>
    hr _ pre' a post' rfl (by rw [hsplit, h]))
  rw [← hsplit, List.length_dropLast] at hl
  rw [List.length_append, hlen]
  omega

/-- A packet that is the one waited for, when nothing relevant is buffered. -/
theorem addPacket_next (hidx : ∀ p, seqOf p = idx p % 65536) (drop wait : Nat) (s : Sorter P) (p : P)
    (hf : s.first = false) (hp : s.pre = false) (hs : s.seq = idx p % 65536) (hb : ∀ q ∈ s.buf, seqOf q ≠ idx p % 65536) :
    ∃ s' want, addPacket seqOf drop wait s p = (s', [p], want) ∧ s'.first = false ∧ s'.pre = false ∧
      s'.seq = (idx p + 1) % 65536 ∧ s'.buf = s.buf := by
  have hg : giveUp drop (seqOf p) ((seqOf p + 65536 - s.seq) % 65536) s.seq = s.seq := by
    rw [hidx, hs]
    rw [show (idx p % 65536 + 65536 - idx p % 65536) % 65536 = 0 by omega]
    rfl
  have h1 : sorterSkip seqOf drop (sorterFirst s (seqOf p)) (seqOf p) = s := by
    rw [sorterFirst, hf, if_neg (by simp), sorterSkip, hp, if_neg (by simp), hg, ← hp]
  have hw : ∀ t : Sorter P, (sorterWanted t).buf = t.buf ∧ (sorterWanted t).seq = t.seq ∧ (sorterWanted t).first = t.first ∧
      (sorterWanted t).pre = t.pre := by
    intro t
    unfold sorterWanted
    split <;> exact ⟨rfl, rfl, rfl, rfl⟩
  obtain ⟨w1, w2, w3, w4⟩ := hw s
  have hdr : drain seqOf s.buf.length s.seq s.buf = ([], s.seq, s.buf) := by
    cases hl : s.buf.length with
    | zero => rfl
    | succ k =>
      rw [drain]
      have : (s.buf.find? fun q => seqOf q == s.seq) = none := by
        rw [List.find?_eq_none]
        intro q hq
        rw [hs]
        simpa using hb q hq
      rw [this]
  unfold addPacket
  simp only [h1, w1, w2, hdr]
  unfold sorterPlace
  simp only
  rw [if_pos (by rw [hidx, hs])]
  obtain ⟨v1, v2, v3, v4⟩ := hw { sorterWanted s with
    wseq := (wantLoop seqOf wait (seqOf p) s.buf ((seqOf p + 65536 - (sorterWanted s).wseq) % 65536) (sorterWanted s).wseq).2,
    seq := (s.seq + 1) % 65536, buf := s.buf }
  refine ⟨_, _, rfl, ?_, ?_, ?_, ?_⟩
  · rw [v3]; exact w3.trans hf
  · rw [v4]; exact w4.trans hp
  · rw [v2]
    simp only
    omega
  · rw [v1]

theorem run_next (hidx : ∀ p, seqOf p = idx p % 65536) (drop wait : Nat) (arr : List P) : ∀ (s : Sorter P) (n : Nat),
    s.first = false → s.pre = false → s.seq = n % 65536 → arr.map idx = List.range' n arr.length →
    (∀ q ∈ s.buf, ∀ i, n ≤ i → i < n + arr.length → seqOf q ≠ i % 65536) →
    (sorterRun seqOf drop wait s arr).2.1 = arr ∧ (sorterRun seqOf drop wait s arr).1.first = false ∧
      (sorterRun seqOf drop wait s arr).1.pre = false ∧
      (sorterRun seqOf drop wait s arr).1.seq = (n + arr.length) % 65536 ∧ (sorterRun seqOf drop wait s arr).1.buf = s.buf := by
  induction arr with
  | nil =>
    intro s n h1 h2 h3 _ _
    exact ⟨rfl, h1, h2, by simpa [sorterRun] using h3, rfl⟩
  | cons p arr ih =>
    intro s n h1 h2 h3 h4 h5
    rw [List.map_cons, List.length_cons, List.range'_succ] at h4
    injection h4 with h4 h4'
    rw [List.length_cons] at h5
    obtain ⟨s', want, e, g1, g2, g3, g4⟩ := addPacket_next hidx drop wait s p h1 h2 (by rw [h3, h4])
      (fun q hq => by rw [h4]; exact h5 q hq n (Nat.le_refl _) (by omega))
    obtain ⟨k1, k2, k3, k4, k5⟩ := ih s' (n + 1) g1 g2 (by rw [g3, h4]) h4' (fun q hq i hi1 hi2 => by
      rw [g4] at hq
      exact h5 q hq i (by omega) (by omega))
    simp only [sorterRun]
    rw [e]
    refine ⟨by rw [k1]; rfl, k2, k3, ?_, by rw [k5, g4]⟩
    rw [k4, List.length_cons, Nat.add_assoc, Nat.add_comm 1]

theorem sorterWanted_fields (t : Sorter P) : (sorterWanted t).buf = t.buf ∧ (sorterWanted t).seq = t.seq ∧
    (sorterWanted t).first = t.first ∧ (sorterWanted t).pre = t.pre := by
  unfold sorterWanted
  split <;> exact ⟨rfl, rfl, rfl, rfl⟩

/-- One packet of the initial buffering. -/
theorem pre_step (drop wait n : Nat) (hn : 5 ≤ n) (hw : n % 65536 ≤ 65531)
    (s : Sorter P) (p : P) (k : Nat) (hf : s.first = false) (hp : s.pre = true) (hs : s.seq = (n - 5) % 65536) (hl : s.buf.length < 5)
    (hk : k < 5) (hseq : seqOf p = n % 65536 + k) (hb : ∀ q ∈ s.buf, ∃ j, j < k ∧ seqOf q = n % 65536 + j) :
    ∃ s' want, addPacket seqOf drop wait s p = (s', [], want) ∧ s'.first = false ∧ s'.pre = true ∧
      s'.seq = (n - 5) % 65536 ∧ s'.buf = s.buf ++ [p] := by
  have e1 : sorterSkip seqOf drop (sorterFirst s (seqOf p)) (seqOf p) = s := by
    rw [sorterFirst, hf, if_neg (by simp), sorterSkip, hp, if_pos rfl, if_neg (by omega)]
  obtain ⟨w1, w2, w3, w4⟩ := sorterWanted_fields s
  have hdr : drain seqOf s.buf.length s.seq s.buf = ([], s.seq, s.buf) := by
    cases hl : s.buf.length with
    | zero => rfl
    | succ m =>
      rw [drain]
      have : (s.buf.find? fun q => seqOf q == s.seq) = none := by
        rw [List.find?_eq_none]
        intro q hq
        obtain ⟨j, hj, hqj⟩ := hb q hq
        rw [hs, hqj]
        simp only [beq_iff_eq]
        omega
      rw [this]
  have hput : ∀ l : List P, (∀ q ∈ l, ∃ j, j < k ∧ seqOf q = n % 65536 + j) → bufPut seqOf p l = l ++ [p] := by
    intro l
    induction l with
    | nil => intro _; rfl
    | cons q l ih =>
      intro hb
      obtain ⟨j, hj, hqj⟩ := hb q (List.mem_cons_self ..)
      rw [bufPut, if_neg (by omega), if_neg (by omega), ih (fun q h => hb q (List.mem_cons_of_mem _ h))]
      rfl
  have hd : d16 ((n - 5) % 65536) (n % 65536 + k) = ((n - 5 : Nat) : Int) - ((n + k : Nat) : Int) := by
    rw [show n % 65536 + k = (n + k) % 65536 by omega, d16_eq _ _ (by omega) (by omega)]
  unfold addPacket
  simp only [e1, w1, w2, hdr]
  unfold sorterPlace
  simp only
  rw [if_neg (by rw [hs, hseq]; omega), hs, hseq, hd, if_pos (by omega), hput s.buf hb]
  refine ⟨_, _, rfl, ?_, ?_, ?_, ?_⟩
  · rw [(sorterWanted_fields _).2.2.1]; exact w3.trans hf
  · rw [(sorterWanted_fields _).2.2.2]; exact w4.trans hp
  · rw [(sorterWanted_fields _).2.1]
  · rw [(sorterWanted_fields _).1]

/-- The sixth packet. -/
theorem six_last (drop wait n : Nat) (hw : n % 65536 ≤ 65531) (a4 : Sorter P) (p0 p1 p2 p3 p4 p5 : P) (f4 : a4.first = false)
    (g4 : a4.pre = true) (b4 : a4.buf = [p0, p1, p2, p3, p4]) (s0 : seqOf p0 = n % 65536) (s1 : seqOf p1 = n % 65536 + 1)
    (s2 : seqOf p2 = n % 65536 + 2) (s3 : seqOf p3 = n % 65536 + 3) (s4 : seqOf p4 = n % 65536 + 4) (s5 : seqOf p5 = (n + 5) % 65536) :
    ∃ s' want, addPacket seqOf drop wait a4 p5 = (s', [p0, p1, p2, p3, p4, p5], want) ∧ s'.first = false ∧ s'.pre = false ∧
      s'.seq = (n + 6) % 65536 ∧ s'.buf = [] := by
  have m1 : (n % 65536 + 1) % 65536 = n % 65536 + 1 := by omega
  have m2 : (n % 65536 + 1 + 1) % 65536 = n % 65536 + 2 := by omega
  have m3 : (n % 65536 + 2 + 1) % 65536 = n % 65536 + 3 := by omega
  have m4 : (n % 65536 + 3 + 1) % 65536 = n % 65536 + 4 := by omega
  have m5 : (n % 65536 + 4 + 1) % 65536 = (n + 5) % 65536 := by omega
  have hdrain : drain seqOf 5 (n % 65536) [p0, p1, p2, p3, p4] = ([p0, p1, p2, p3, p4], (n + 5) % 65536, []) := by
    simp [drain, s0, s1, s2, s3, s4, m1, m2, m3, m4, m5]
  have ek : sorterSkip seqOf drop (sorterFirst a4 (seqOf p5)) (seqOf p5) = { a4 with pre := false, seq := seqOf p0, wseq := seqOf p0 } := by
    rw [sorterFirst, f4, if_neg (by simp), sorterSkip, g4, if_pos rfl, if_pos (by rw [b4]; simp)]
    simp only [b4, f4]
  obtain ⟨w1, w2, w3, w4⟩ := sorterWanted_fields { a4 with pre := false, seq := seqOf p0, wseq := seqOf p0 }
  simp only [b4, s0] at w1 w2
  unfold addPacket
  simp only [ek, w1, w2, b4, s0, List.length_cons, List.length_nil, Nat.reduceAdd, hdrain]
  unfold sorterPlace
  simp only
  rw [if_pos s5]
  refine ⟨_, _, rfl, ?_, ?_, ?_, ?_⟩
  · rw [(sorterWanted_fields _).2.2.1, (sorterWanted_fields _).2.2.1]; exact f4
  · rw [(sorterWanted_fields _).2.2.2, (sorterWanted_fields _).2.2.2]
  · rw [(sorterWanted_fields _).2.1]
    simp only
    omega
  · rw [(sorterWanted_fields _).1]

/-- The first six packets of a stream that arrives in order. -/
theorem run_six (hidx : ∀ p, seqOf p = idx p % 65536) (drop wait n : Nat) (hn : 5 ≤ n) (hw : n % 65536 ≤ 65531)
    (p0 p1 p2 p3 p4 p5 : P) (h0 : idx p0 = n) (h1 : idx p1 = n + 1) (h2 : idx p2 = n + 2) (h3 : idx p3 = n + 3)
    (h4 : idx p4 = n + 4) (h5 : idx p5 = n + 5) :
    (sorterRun seqOf drop wait Sorter.init [p0, p1, p2, p3, p4, p5]).2.1 = [p0, p1, p2, p3, p4, p5] ∧
      (sorterRun seqOf drop wait Sorter.init [p0, p1, p2, p3, p4, p5]).1.first = false ∧
      (sorterRun seqOf drop wait Sorter.init [p0, p1, p2, p3, p4, p5]).1.pre = false ∧
      (sorterRun seqOf drop wait Sorter.init [p0, p1, p2, p3, p4, p5]).1.seq = (n + 6) % 65536 ∧
      (sorterRun seqOf drop wait Sorter.init [p0, p1, p2, p3, p4, p5]).1.buf = [] := by
  have s0 : seqOf p0 = n % 65536 := by rw [hidx, h0]
  have s1 : seqOf p1 = n % 65536 + 1 := by rw [hidx, h1]; omega
  have s2 : seqOf p2 = n % 65536 + 2 := by rw [hidx, h2]; omega
  have s3 : seqOf p3 = n % 65536 + 3 := by rw [hidx, h3]; omega
  have s4 : seqOf p4 = n % 65536 + 4 := by rw [hidx, h4]; omega
  have s5 : seqOf p5 = (n + 5) % 65536 := by rw [hidx, h5]
  have step := fun s p k => pre_step (seqOf := seqOf) drop wait n hn hw s p k
  obtain ⟨a0, v0, e0, f0, g0, k0, b0⟩ := step (firstState n) p0 0 rfl rfl rfl (by simp [firstState]) (by omega) s0
    (fun q h => absurd h (by simp [firstState]))
  rw [show (firstState n : Sorter P).buf ++ [p0] = [p0] from rfl] at b0
  obtain ⟨a1, v1, e1, f1, g1, k1, b1⟩ := step a0 p1 1 f0 g0 k0 (by rw [b0]; simp) (by omega) s1
    (by rw [b0]; simp only [List.mem_cons, List.not_mem_nil, or_false]; rintro q rfl; exact ⟨0, by omega, s0⟩)
  rw [b0] at b1
  obtain ⟨a2, v2, e2, f2, g2, k2, b2⟩ := step a1 p2 2 f1 g1 k1 (by rw [b1]; simp) (by omega) s2
    (by
      rw [b1]; simp only [List.cons_append, List.nil_append, List.mem_cons, List.not_mem_nil, or_false]
      rintro q (rfl | rfl)
      · exact ⟨0, by omega, s0⟩
      · exact ⟨1, by omega, s1⟩)
  rw [b1] at b2
  obtain ⟨a3, v3, e3, f3, g3, k3, b3⟩ := step a2 p3 3 f2 g2 k2 (by rw [b2]; simp) (by omega) s3
    (by
      rw [b2]; simp only [List.cons_append, List.nil_append, List.mem_cons, List.not_mem_nil, or_false]
      rintro q (rfl | rfl | rfl)
      · exact ⟨0, by omega, s0⟩
      · exact ⟨1, by omega, s1⟩
      · exact ⟨2, by omega, s2⟩)
  rw [b2] at b3
  obtain ⟨a4, v4, e4, f4, g4, k4, b4⟩ := step a3 p4 4 f3 g3 k3 (by rw [b3]; simp) (by omega) s4
    (by
      rw [b3]; simp only [List.cons_append, List.nil_append, List.mem_cons, List.not_mem_nil, or_false]
      rintro q (rfl | rfl | rfl | rfl)
      · exact ⟨0, by omega, s0⟩
      · exact ⟨1, by omega, s1⟩
      · exact ⟨2, by omega, s2⟩
      · exact ⟨3, by omega, s3⟩)
  rw [b3] at b4
  simp only [List.cons_append, List.nil_append] at b4
  have e5 := six_last (seqOf := seqOf) drop wait n hw a4 p0 p1 p2 p3 p4 p5 f4 g4 b4 s0 s1 s2 s3 s4 s5
  obtain ⟨a5, v5, e5, r1, r2, r3, r4⟩ := e5
  simp only [sorterRun]
  rw [addPacket_first hidx drop wait p0 (by omega), h0, e0]
  simp only
  rw [e1]
  simp only
  rw [e2]
  simp only
  rw [e3]
  simp only
  rw [e4]
  simp only
  rw [e5]
  exact ⟨rfl, r1, r2, r3, r4⟩

/-- **C26, a stream in order.** A stream of six packets or more that arrives in order, of any length, across any number
of wraps of the sequence number, is delivered completely, in order, once. Its first six packets must not straddle
the 16-bit boundary (`C26_wrap_fails`). -/
theorem C26_in_order (hidx : ∀ p, seqOf p = idx p % 65536) (drop wait n : Nat) (hn : 5 ≤ n) (hw : n % 65536 ≤ 65531)
    (arr : List P) (hlen : 6 ≤ arr.length) (hord : arr.map idx = List.range' n arr.length) :
    (sorterRun seqOf drop wait Sorter.init arr).2.1 = arr := by
  match arr, hlen, hord with
  | p0 :: p1 :: p2 :: p3 :: p4 :: p5 :: rest, _, hord =>
    rw [List.map_cons, List.length_cons, List.range'_succ] at hord
    obtain ⟨h0, hord⟩ := List.cons.inj hord
    rw [List.map_cons, List.length_cons, List.range'_succ] at hord
    obtain ⟨h1, hord⟩ := List.cons.inj hord
    rw [List.map_cons, List.length_cons, List.range'_succ] at hord
    obtain ⟨h2, hord⟩ := List.cons.inj hord
    rw [List.map_cons, List.length_cons, List.range'_succ] at hord
    obtain ⟨h3, hord⟩ := List.cons.inj hord
    rw [List.map_cons, List.length_cons, List.range'_succ] at hord
    obtain ⟨h4, hord⟩ := List.cons.inj hord
    rw [List.map_cons, List.length_cons, List.range'_succ] at hord
    obtain ⟨h5, hord⟩ := List.cons.inj hord
    obtain ⟨k1, k2, k3, k4, k5⟩ := run_six hidx drop wait n hn hw p0 p1 p2 p3 p4 p5 h0 h1 h2 h3 h4 h5
    have := run_next hidx drop wait rest _ (n + 6) k2 k3 k4 hord (fun q hq => by rw [k5] at hq; simp at hq)
    rw [show p0 :: p1 :: p2 :: p3 :: p4 :: p5 :: rest = [p0, p1, p2, p3, p4, p5] ++ rest from rfl, sorterRun_append, k1, this.1]

end

/-! ## Concrete cases, and what goes wrong

Here packets are just their indices. -/

/-- A fresh sorter with the default timeouts, fed with packets that are their own indices. -/
def sorterTry (arr : List Nat) : List Nat := (sorterRun (· % 65536) 30 5 Sorter.init arr).2.1

/-- Non-vacuity of `C26_safe`: reordering, a duplicate and a loss, across the boundary. -/
example : sorterTry [65530, 65532, 65531, 65533, 65534, 65535, 65537, 65537, 65536, 65538, 65540, 65541] =
    [65530, 65531, 65532, 65533, 65534, 65535, 65536, 65537, 65538] ∧
    (∀ a ∈ [65530, 65532, 65531, 65533, 65534, 65535, 65537, 65537, 65536, 65538, 65540, 65541], 65530 ≤ a ∧ a < 65530 + 32762) := by
  decide +kernel

/-- Non-vacuity of `C26_moves_on` and `C26_requests`: packet 108 never arrives. It is asked for when 114 arrives, and
given up on when 139 does. -/
example :
    (sorterRun (· % 65536) 30 5 Sorter.init (List.range' 100 8)).1.pre = false ∧
    (addPacket (· % 65536) 30 5 (sorterRun (· % 65536) 30 5 Sorter.init (List.range' 100 8 ++ List.range' 109 5)).1 114).2.2 = [108] ∧
    sorterTry (List.range' 100 8 ++ List.range' 109 30) = List.range' 100 8 ∧
    sorterTry (List.range' 100 8 ++ List.range' 109 31) = List.range' 100 8 ++ List.range' 109 31 := by decide +kernel

/-- Non-vacuity of `C26_consecutive` and `C26_reordered`: pairs swapped, over and over. -/
example : ∃ n, (sorterTry ([100, 102, 101, 104, 103] ++ [106, 105, 108, 107, 110, 109, 111])).map id = List.range' 100 n ∧ n = 12 := by
  obtain ⟨n, h1, -, h3⟩ := C26_reordered (P := Nat) (seqOf := (· % 65536)) (idx := id) (fun _ => rfl) 30 5 100 1 (by decide) (by decide)
    (by decide) 100 [102, 101, 104, 103] [106, 105, 108, 107, 110, 109, 111] rfl (by decide) (by decide) (by decide) (by decide)
    (by
      intro j q h
      have hj : j < 12 := by
        rcases Nat.lt_or_ge j 12 with h' | h'
        · exact h'
        · rw [List.getElem?_eq_none (by simpa using h')] at h
          exact absurd h (by simp)
      have all : ∀ j : Fin 12, ∀ q ∈ ([100, 102, 101, 104, 103, 106, 105, 108, 107, 110, 109, 111] : List Nat)[j.val]?, q ≤ 100 + j.val + 1 ∧ 100 + j.val ≤ q + 1 := by
        decide
      exact all ⟨j, hj⟩ q h)
    (by
      intro i hi1 hi2
      have all : ∀ j : Fin 12, ∃ q ∈ ([100, 102, 101, 104, 103, 106, 105, 108, 107, 110, 109, 111] : List Nat), q = 100 + j.val := by decide
      obtain ⟨q, hq, hqi⟩ := all ⟨i - 100, by simp at hi2; omega⟩
      exact ⟨q, hq, by simp only [id] at hqi ⊢; omega⟩)
  have : sorterTry ([100, 102, 101, 104, 103] ++ [106, 105, 108, 107, 110, 109, 111]) = List.range' 100 12 := by decide +kernel
  refine ⟨12, ?_, rfl⟩
  rw [this, List.map_id]

/-- Non-vacuity of `C26_in_order`: a stream that wraps. -/
example : sorterTry (List.range' 65500 1000) = List.range' 65500 1000 := by
  unfold sorterTry
  exact C26_in_order (P := Nat) (seqOf := (· % 65536)) (idx := id) (fun _ => rfl) 30 5 65500 (by decide) (by decide) (List.range' 65500 1000)
    (by rw [List.length_range']; decide) (by rw [List.length_range', List.map_id])

/-- A stream whose first five packets straddle the boundary, although it arrives in order and without losses, loses its
beginning: the lowest *number* among the buffered packets is taken for the start (rtp.cpp 869). -/
theorem C26_wrap_fails : sorterTry (List.range' 65534 20) = List.range' 65536 18 := by decide +kernel

/-- A stream of up to five packets is not delivered at all: it stays in the initial buffer. -/
theorem C26_short_fails (n : Nat) (hn : 5 ≤ n) (hw : n % 65536 ≤ 65531) (k : Nat) (hk : k ≤ 5) :
    sorterTry (List.range' n k) = [] := by
  have h6 := C26_in_order (P := Nat) (seqOf := (· % 65536)) (idx := id) (fun _ => rfl) 30 5 n hn hw (List.range' n 6) (by simp) (by simp)
  cases k with
  | zero => rfl
  | succ k =>
    have hlen : (n :: List.range' (n + 1) k).length ≤ 5 := by simp; omega
    obtain ⟨s, w, e, -⟩ := run_pre (P := Nat) (seqOf := (· % 65536)) (idx := id) (fun _ => rfl) 30 5 (n - 5) (n + 6) (n - 5) (by omega)
      (n :: List.range' (n + 1) k) [] (firstState n) (firstState_inv _ _ _ hn (Nat.le_refl _) (by omega)) rfl rfl (by simpa using hlen)
      (by
        rw [List.nil_append, List.map_id, ← List.range'_succ]
        exact List.nodup_range')
      (by
        intro a ha
        rw [List.nil_append, ← List.range'_succ, List.mem_range'_1] at ha
        simp only [id]
        omega)
    unfold sorterTry
    rw [List.range'_succ]
    have hinit : sorterRun (· % 65536) 30 5 Sorter.init (n :: List.range' (n + 1) k) =
        sorterRun (· % 65536) 30 5 (firstState n) (n :: List.range' (n + 1) k) := by
      simp only [sorterRun]
      rw [addPacket_first (P := Nat) (seqOf := (· % 65536)) (idx := id) (fun _ => rfl) 30 5 n hn]
      rfl
    rw [hinit, e]

/-- Packets that did arrive, and in time, are given up on together with the lost one before them: of the two losses 108
and 139, the second takes packet 109, already in the buffer, with it. -/
theorem C26_skip_fails :
    sorterTry (List.range' 100 8 ++ List.range' 109 30 ++ List.range' 140 10) =
      List.range' 100 8 ++ List.range' 110 29 := by decide +kernel

/-- What was skipped stays in the buffer for ever, and comes out when the 16-bit counter comes round: packet 65643 is not
delivered and packet 107, 65536 packets old, is delivered in its place. The stream misses one packet, and one packet
arrives early, and otherwise is in order. -/
theorem C26_stale_fails :
    sorterTry (List.range' 100 6 ++ [107, 138] ++ List.range' 108 30 ++ List.range' 139 65504 ++ [65643]) =
      List.range' 100 6 ++ List.range' 108 65535 ++ [107] := by
  have h1 : (sorterRun (· % 65536) 30 5 Sorter.init (List.range' 100 6 ++ [107, 138] ++ List.range' 108 30 ++ [139])).2.1 =
      List.range' 100 6 ++ List.range' 108 32 ∧
    (sorterRun (· % 65536) 30 5 Sorter.init (List.range' 100 6 ++ [107, 138] ++ List.range' 108 30 ++ [139])).1 =
      ⟨140, 140, false, false, [107]⟩ := by decide +kernel
  obtain ⟨h2, h3, h4, h5, h6⟩ := run_next (P := Nat) (seqOf := (· % 65536)) (idx := id) (fun _ => rfl) 30 5 (List.range' 140 65503)
    ⟨140, 140, false, false, [107]⟩ 140 rfl rfl rfl (by rw [List.map_id, List.length_range']) (by
      intro q hq i hi1 hi2
      rw [List.mem_singleton] at hq
      rw [List.length_range'] at hi2
      subst hq
      show 107 % 65536 ≠ i % 65536
      omega)
  rw [List.length_range'] at h5
  have hsplit : List.range' 100 6 ++ [107, 138] ++ List.range' 108 30 ++ List.range' 139 65504 ++ [65643] =
      (List.range' 100 6 ++ [107, 138] ++ List.range' 108 30 ++ [139]) ++ (List.range' 140 65503 ++ [65643]) := by
    have : List.range' 139 65504 = 139 :: List.range' 140 65503 := List.range'_succ ..
    rw [this]
    simp only [List.append_assoc, List.cons_append, List.nil_append]
  unfold sorterTry
  rw [hsplit, sorterRun_append, h1.1, h1.2, sorterRun_append, h2]
  generalize hst : (sorterRun (fun x => x % 65536) 30 5 ⟨140, 140, false, false, [107]⟩ (List.range' 140 65503)).1 = st at h3 h4 h5 h6
  have hlast : (sorterRun (fun x => x % 65536) 30 5 st [65643]).2.1 = [107] := by
    obtain ⟨sq, wq, f, pr, b⟩ := st
    simp only at h3 h4 h5 h6
    subst h3 h4 h5 h6
    have : ∀ t : Sorter Nat, (sorterWanted t).buf = t.buf ∧ (sorterWanted t).seq = t.seq := by
      intro t
      unfold sorterWanted
      split <;> exact ⟨rfl, rfl⟩
    have hplace : ∀ (t : Sorter Nat) (p : Nat), (sorterPlace (· % 65536) t p).2 = bif p % 65536 == t.seq then [p] else [] := by
      intro t p
      unfold sorterPlace
      split
      · rename_i h; rw [show p % 65536 = t.seq from h, beq_self_eq_true]; rfl
      · rename_i h
        rw [show (p % 65536 == t.seq) = false from beq_false_of_ne h]
        split <;> rfl
    simp only [sorterRun, addPacket, this, List.append_nil, hplace, sorterFirst, sorterSkip, Bool.false_eq_true, if_false]
    clear hst h1 h2 hsplit this hplace
    decide +kernel
  rw [hlast]
  simp only [List.append_assoc]
  rw [← List.append_assoc (List.range' 108 32), show List.range' 140 65503 = List.range' (108 + 32) 65503 from rfl, List.range'_append_1]

end Verif.Rtp
