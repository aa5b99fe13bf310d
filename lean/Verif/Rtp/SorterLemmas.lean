import Verif.Rtp.Sorter

/-!
# Lemmas for C26: one arrival at the packet sorter
-/
namespace Verif.Rtp

theorem d16_eq (a b : Nat) (h1 : a ≤ b + 32767) (h2 : b ≤ a + 32768) :
    d16 (a % 65536) (b % 65536) = (a : Int) - b := by
  unfold d16
  split <;> omega

section
variable {P : Type} {seqOf : P → Nat} {idx : P → Nat}

theorem giveUp_eq (drop N : Nat) : ∀ (fuel S : Nat), N ≤ S + 32767 → S ≤ N + 32767 → N ≤ S + fuel →
    giveUp drop (N % 65536) fuel (S % 65536) = (if S + drop < N then N - drop else S) % 65536 := by
  intro fuel
  induction fuel with
  | zero =>
    intro S h1 h2 h3
    rw [if_neg (by omega)]
    rfl
  | succ f ih =>
    intro S h1 h2 h3
    rw [giveUp, d16_eq _ _ (by omega) (by omega)]
    by_cases h : S + drop < N
    · rw [if_pos (by omega), if_pos h, show (S % 65536 + 1) % 65536 = (S + 1) % 65536 by omega,
        ih (S + 1) (by omega) (by omega) (by omega)]
      by_cases h' : S + 1 + drop < N
      · rw [if_pos h']
      · rw [if_neg h', show N - drop = S + 1 by omega]
    · rw [if_neg (by omega), if_neg h]

theorem wantLoop_eq (wait N : Nat) (buf : List P) : ∀ (fuel W : Nat), N ≤ W + 32767 → W ≤ N + 32767 → N ≤ W + fuel →
    (wantLoop seqOf wait (N % 65536) buf fuel (W % 65536)).2 = (if W + wait < N then N - wait else W) % 65536 ∧
    ∀ w ∈ (wantLoop seqOf wait (N % 65536) buf fuel (W % 65536)).1,
      ∃ i, w = i % 65536 ∧ W ≤ i ∧ i + wait < N ∧ bufHas seqOf buf (i % 65536) = false := by
  intro fuel
  induction fuel with
  | zero =>
    intro W h1 h2 h3
    rw [if_neg (by omega)]
    exact ⟨rfl, fun w hw => absurd hw (by simp [wantLoop])⟩
  | succ f ih =>
    intro W h1 h2 h3
    rw [wantLoop, d16_eq _ _ (by omega) (by omega)]
    by_cases h : W + wait < N
    · rw [if_pos (by omega), if_pos h, show (W % 65536 + 1) % 65536 = (W + 1) % 65536 by omega]
      obtain ⟨i1, i2⟩ := ih (W + 1) (by omega) (by omega) (by omega)
      refine ⟨?_, ?_⟩
      · simp only
        rw [i1]
        by_cases h' : W + 1 + wait < N
        · rw [if_pos h']
        · rw [if_neg h', show N - wait = W + 1 by omega]
      · intro w hw
        simp only [List.mem_append] at hw
        rcases hw with hw | hw
        · by_cases hb : bufHas seqOf buf (W % 65536) = true
          · rw [if_pos hb] at hw
            exact absurd hw (by simp)
          · rw [if_neg hb, List.mem_singleton] at hw
            exact ⟨W, hw, Nat.le_refl _, by omega, by simpa using hb⟩
        · obtain ⟨i, e1, e2, e3, e4⟩ := i2 w hw
          exact ⟨i, e1, by omega, e3, e4⟩
    · rw [if_neg (by omega), if_neg h]
      exact ⟨rfl, fun w hw => absurd hw (by simp)⟩

theorem bufHas_false {buf : List P} {k : Nat} : bufHas seqOf buf k = false ↔ ∀ q ∈ buf, seqOf q ≠ k := by
  simp [bufHas]

theorem mod_inj {L U a b : Nat} (ha : L ≤ a ∧ a ≤ U) (hb : L ≤ b ∧ b ≤ U) (hU : U ≤ L + 32767)
    (h : a % 65536 = b % 65536) : a = b := by omega

theorem drain_eq (hidx : ∀ p, seqOf p = idx p % 65536) (L U : Nat) (hU : U ≤ L + 32767) : ∀ (fuel S : Nat) (buf : List P),
    buf.length ≤ fuel → L ≤ S → S ≤ U → (∀ q ∈ buf, L ≤ idx q ∧ idx q + 1 ≤ U) →
    ∃ out buf', drain seqOf fuel (S % 65536) buf = (out, (S + out.length) % 65536, buf') ∧
      out.map idx = List.range' S out.length ∧ (∀ q ∈ out, q ∈ buf) ∧ buf'.Sublist buf ∧
      (∀ q ∈ buf', idx q ≠ S + out.length) ∧ (∀ q ∈ buf, q ∈ buf' ∨ (S ≤ idx q ∧ idx q < S + out.length)) ∧
      (∀ q ∈ buf', idx q < S ∨ S + out.length < idx q) ∧ S + out.length ≤ U := by
  intro fuel
  induction fuel with
  | zero =>
    intro S buf hl h1 h2 _
    have : buf = [] := List.length_eq_zero_iff.mp (Nat.le_zero.mp hl)
    subst this
    exact ⟨[], [], rfl, rfl, fun q h => h, List.Sublist.refl _, fun q h => absurd h (by simp), fun q h => absurd h (by simp),
      fun q h => absurd h (by simp), h2⟩
  | succ f ih =>
    intro S buf hl h1 h2 hb
    rw [drain]
    cases hf : buf.find? fun q => seqOf q == S % 65536 with
    | none =>
      have hne : ∀ q ∈ buf, idx q ≠ S := by
        intro q hq e
        have := List.find?_eq_none.mp hf q hq
        rw [hidx, e] at this
        simp at this
      exact ⟨[], buf, rfl, rfl, fun q h => absurd h (by simp), List.Sublist.refl _, hne, fun q h => Or.inl h,
        fun q h => by have := hne q h; simp only [List.length_nil]; omega, h2⟩
    | some q =>
      have hq := List.mem_of_find?_eq_some hf
      have hqs := List.find?_some hf
      simp only [beq_iff_eq] at hqs
      have hqi : idx q = S := mod_inj (L := L) (U := U) (by have := hb q hq; omega) ⟨h1, h2⟩ hU (by rw [← hidx, hqs])
      have hsub : (buf.filter fun q => seqOf q != S % 65536).Sublist buf := List.filter_sublist
      have hlt : (buf.filter fun q => seqOf q != S % 65536).length < buf.length :=
        List.length_filter_lt_length_iff_exists.mpr ⟨q, hq, by simp [hqs]⟩
      have hU' := (hb q hq).2
      obtain ⟨out, buf', e1, e2, e3, e4, e5, e6, e7, e8⟩ := ih (S + 1) (buf.filter fun q => seqOf q != S % 65536) (by omega) (by omega)
        (by omega) (fun q h => hb q (hsub.mem h))
      refine ⟨q :: out, buf', ?_, ?_, ?_, e4.trans hsub, ?_, ?_, ?_, ?_⟩
      · simp only
        rw [show (S % 65536 + 1) % 65536 = (S + 1) % 65536 by omega, e1]
        simp only [List.length_cons]
        rw [show S + 1 + out.length = S + (out.length + 1) by omega]
      · rw [List.map_cons, e2, hqi, List.length_cons, List.range'_succ]
      · intro r hr
        rcases List.mem_cons.mp hr with rfl | hr
        · exact hq
        · exact hsub.mem (e3 r hr)
      · intro r hr
        have := e5 r hr
        rw [List.length_cons]
        omega
      · intro r hr
        rw [List.length_cons]
        by_cases h : seqOf r = S % 65536
        · have : idx r = S := mod_inj (L := L) (U := U) (by have := hb r hr; omega) ⟨h1, h2⟩ hU (by rw [← hidx, h])
          exact Or.inr (by omega)
        · rcases e6 r (List.mem_filter.mpr ⟨hr, by simpa using h⟩) with h' | h'
          · exact Or.inl h'
          · exact Or.inr (by omega)
      · intro r hr
        have h3 := e7 r hr
        have h4 := (List.mem_filter.mp (e4.mem hr)).2
        have : idx r ≠ S := by
          intro e
          rw [hidx, e] at h4
          simp at h4
        rw [List.length_cons]
        omega
      · rw [List.length_cons]; omega

theorem mem_bufPut {p q : P} {buf : List P} (h : q ∈ bufPut seqOf p buf) : q = p ∨ q ∈ buf := by
  induction buf with
  | nil => simpa [bufPut] using h
  | cons r buf ih =>
    unfold bufPut at h
    split at h
    · simpa using h
    · split at h
      · simp only [List.mem_cons] at h ⊢
        exact h.imp_right Or.inr
      · simp only [List.mem_cons] at h ⊢
        rcases h with h | h
        · exact Or.inr (Or.inl h)
        · rcases ih h with h | h
          · exact Or.inl h
          · exact Or.inr (Or.inr h)

theorem bufPut_self (p : P) (buf : List P) : p ∈ bufPut seqOf p buf := by
  induction buf with
  | nil => simp [bufPut]
  | cons r buf ih =>
    unfold bufPut
    split
    · simp
    · split <;> simp [ih]

theorem bufPut_keep (p q : P) {buf : List P} (h : q ∈ buf) : q ∈ bufPut seqOf p buf ∨ seqOf q = seqOf p := by
  induction buf with
  | nil => simp at h
  | cons r buf ih =>
    unfold bufPut
    split
    · exact Or.inl (List.mem_cons_of_mem _ h)
    · split
      · rename_i h2
        rcases List.mem_cons.mp h with rfl | h
        · exact Or.inr h2.symm
        · exact Or.inl (by simp [h])
      · rcases List.mem_cons.mp h with rfl | h
        · exact Or.inl (by simp)
        · rcases ih h with h | h
          · exact Or.inl (by simp [h])
          · exact Or.inr h

theorem bufPut_sorted (p : P) {buf : List P} (h : buf.Pairwise fun a b => seqOf a < seqOf b) :
    (bufPut seqOf p buf).Pairwise fun a b => seqOf a < seqOf b := by
  induction buf with
  | nil => simp [bufPut]
  | cons r buf ih =>
    obtain ⟨h1, h2⟩ := List.pairwise_cons.mp h
    unfold bufPut
    split
    · rename_i h3
      refine List.pairwise_cons.mpr ⟨?_, h⟩
      intro a ha
      rcases List.mem_cons.mp ha with rfl | ha
      · exact h3
      · have := h1 a ha; omega
    · split
      · rename_i h3 h4
        refine List.pairwise_cons.mpr ⟨?_, h2⟩
        intro a ha
        have := h1 a ha; omega
      · rename_i h3 h4
        refine List.pairwise_cons.mpr ⟨?_, ih h2⟩
        intro a ha
        rcases mem_bufPut ha with rfl | ha
        · omega
        · exact h1 a ha

/-- What holds between arrivals: `S` is the (full) index the sorter waits for; `[L, U]` is the part of the stream
everything known lies in. -/
structure SortInv (seqOf idx : P → Nat) (L U : Nat) (arrived : List P) (s : Sorter P) (S : Nat) : Prop where
  first : s.first = false
  seq : s.seq = S % 65536
  lo : L ≤ S
  hi : S ≤ U
  wseq : ∃ W, s.wseq = W % 65536 ∧ S ≤ W ∧ W ≤ U
  sorted : s.buf.Pairwise fun a b => seqOf a < seqOf b
  mem : ∀ q ∈ s.buf, q ∈ arrived ∧ L ≤ idx q ∧ idx q + 1 ≤ U
  comp : ∀ q ∈ arrived, S ≤ idx q → ∃ r ∈ s.buf, idx r = idx q
  pre : s.pre = true → ∀ q ∈ s.buf, S ≤ idx q

/-- The index the sorter is at once it has given up on what it gives up on. -/
def skipTo (idx : P → Nat) (drop : Nat) (s : Sorter P) (S N : Nat) : Nat :=
  if s.pre then (if s.buf.length ≥ 5 then match s.buf with | [] => S | q :: _ => idx q else S)
  else if S + drop < N then N - drop else S

theorem sorterWanted_eq {L U : Nat} (hU : U ≤ L + 32767) (s : Sorter P) (S W : Nat) (hs : s.seq = S % 65536)
    (hw : s.wseq = W % 65536) (h1 : L ≤ S) (h2 : S ≤ U) (h3 : L ≤ W) (h4 : W ≤ U) :
    sorterWanted s = { s with wseq := (max W S) % 65536 } := by
  unfold sorterWanted
  rw [hs, hw, d16_eq _ _ (by omega) (by omega)]
  by_cases h : W < S
  · rw [if_pos (by omega), Nat.max_eq_right (by omega)]
  · rw [if_neg (by omega), Nat.max_eq_left (by omega), ← hw, ← hs]

theorem addPacket_step (hidx : ∀ p, seqOf p = idx p % 65536) (L U drop wait : Nat) (hU : U ≤ L + 32767)
    (arrived : List P) (s : Sorter P) (S : Nat) (hi : SortInv seqOf idx L U arrived s S) (p : P)
    (hp1 : L ≤ idx p) (hp2 : idx p + 1 ≤ U) :
    ∃ s' outs want, addPacket seqOf drop wait s p = (s', outs, want) ∧
      SortInv seqOf idx L U (arrived ++ [p]) s' (skipTo idx drop s S (idx p) + outs.length) ∧
      S ≤ skipTo idx drop s S (idx p) ∧ skipTo idx drop s S (idx p) ≤ U ∧
      outs.map idx = List.range' (skipTo idx drop s S (idx p)) outs.length ∧
      (∀ q ∈ outs, q ∈ arrived ++ [p]) ∧
      (∀ w ∈ want, ∃ i, w = i % 65536 ∧ S ≤ i ∧ i + wait < idx p ∧ ∀ q ∈ arrived, idx q ≠ i) ∧
      (∀ i, skipTo idx drop s S (idx p) ≤ i → (∀ j, skipTo idx drop s S (idx p) ≤ j → j ≤ i → ∃ q ∈ arrived, idx q = j) →
        i < skipTo idx drop s S (idx p) + outs.length) ∧
      ((∀ q ∈ s.buf, skipTo idx drop s S (idx p) ≤ idx q) →
        ∀ q ∈ s'.buf, skipTo idx drop s S (idx p) + outs.length ≤ idx q) ∧
      s'.pre = (s.pre && !decide (5 ≤ s.buf.length)) ∧
      (skipTo idx drop s S (idx p) ≤ idx p → ∃ q ∈ outs ++ s'.buf, idx q = idx p) := by
  obtain ⟨W0, hw0, hw1, hw2⟩ := hi.wseq
  -- giving up
  have hskip : ∃ w1 W1, sorterSkip seqOf drop (sorterFirst s (seqOf p)) (seqOf p) =
      { s with pre := s.pre && !decide (5 ≤ s.buf.length), seq := skipTo idx drop s S (idx p) % 65536, wseq := w1 } ∧
      w1 = W1 % 65536 ∧ S ≤ W1 ∧ W1 ≤ U ∧ S ≤ skipTo idx drop s S (idx p) ∧ skipTo idx drop s S (idx p) ≤ U := by
    have hfirst : sorterFirst s (seqOf p) = s := by rw [sorterFirst, hi.first]; rfl
    rw [hfirst]
    unfold sorterSkip skipTo
    cases hpre : s.pre with
    | true =>
      simp only [if_true, Bool.true_and]
      by_cases h5 : s.buf.length ≥ 5
      · rw [if_pos h5]
        cases hbuf : s.buf with
        | nil => rw [hbuf] at h5; simp at h5
        | cons q r =>
          rw [hbuf] at h5
          have hqm : q ∈ s.buf := by rw [hbuf]; simp
          have h1 := hi.pre hpre q hqm
          have h2 := hi.mem q hqm
          simp only
          rw [if_pos (by simpa using h5), hidx q]
          refine ⟨idx q % 65536, idx q, ?_, rfl, h1, by omega, h1, by omega⟩
          rw [show (decide (5 ≤ (q :: r).length)) = true from decide_eq_true h5]
          rw [← hbuf]
          rfl
      · rw [if_neg h5, if_neg h5]
        refine ⟨s.wseq, W0, ?_, hw0, hw1, hw2, Nat.le_refl _, hi.hi⟩
        rw [show (decide (5 ≤ s.buf.length)) = false from decide_eq_false h5, ← hi.seq]
        cases s
        simp_all
    | false =>
      simp only [Bool.false_eq_true, if_false, Bool.false_and]
      have := hi.lo
      have := hi.hi
      refine ⟨s.wseq, W0, ?_, hw0, hw1, hw2, ?_, ?_⟩
      · rw [hidx p, hi.seq]
        by_cases hlt : S ≤ idx p
        · rw [giveUp_eq _ _ _ _ (by omega) (by omega) (by omega)]
        · have : ∀ fuel, giveUp drop (idx p % 65536) fuel (S % 65536) = S % 65536 := by
            intro fuel
            rw [giveUp_eq _ _ _ _ (by omega) (by omega) (by omega), if_neg (by omega)]
          rw [this, if_neg (by omega)]
      · split <;> omega
      · split <;> omega
  obtain ⟨w1, W1, hs1, hw11, hw12, hw13, hS1, hS2⟩ := hskip
  generalize hT : skipTo idx drop s S (idx p) = T at hs1 hS1 hS2 ⊢
  have hlo := hi.lo
  have hs2 := sorterWanted_eq hU { s with pre := s.pre && !decide (5 ≤ s.buf.length), seq := T % 65536, wseq := w1 } T W1 rfl hw11
    (by omega) (by omega) (by omega) hw13
  have hmem : ∀ q ∈ s.buf, L ≤ idx q ∧ idx q + 1 ≤ U := fun q h => (hi.mem q h).2
  obtain ⟨dout, buf', e1, e2, e3, e4, e5, e6, e7, e8⟩ := drain_eq hidx L U hU s.buf.length T s.buf (Nat.le_refl _) (by omega) hS2 hmem
  -- the wanted loop
  have hwant : ∃ want W2, wantLoop seqOf wait (seqOf p) s.buf ((seqOf p + 65536 - (max W1 T) % 65536) % 65536) ((max W1 T) % 65536) = (want, W2 % 65536) ∧
      T ≤ W2 ∧ W2 ≤ U ∧ ∀ w ∈ want, ∃ i, w = i % 65536 ∧ T ≤ i ∧ i + wait < idx p ∧ bufHas seqOf s.buf (i % 65536) = false := by
    rw [hidx p]
    have hm1 : T ≤ max W1 T := Nat.le_max_right ..
    have hm2 : max W1 T ≤ U := Nat.max_le.mpr ⟨hw13, hS2⟩
    generalize max W1 T = M at hm1 hm2
    by_cases hlt : M ≤ idx p
    · obtain ⟨g1, g2⟩ := wantLoop_eq (seqOf := seqOf) wait (idx p) s.buf ((idx p % 65536 + 65536 - M % 65536) % 65536) M (by omega) (by omega) (by omega)
      refine ⟨_, _, Prod.ext rfl g1, ?_, ?_, ?_⟩
      · split <;> omega
      · split <;> omega
      · intro w hw
        obtain ⟨i, a, b, c, d⟩ := g2 w hw
        exact ⟨i, a, by omega, c, d⟩
    · obtain ⟨g1, g2⟩ := wantLoop_eq (seqOf := seqOf) wait (idx p) s.buf ((idx p % 65536 + 65536 - M % 65536) % 65536) M (by omega) (by omega) (by omega)
      refine ⟨_, _, Prod.ext rfl g1, ?_, ?_, ?_⟩
      · split <;> omega
      · split <;> omega
      · intro w hw
        obtain ⟨i, a, b, c, d⟩ := g2 w hw
        exact ⟨i, a, by omega, c, d⟩
  obtain ⟨want, W2, hwl, hW1, hW2, hW3⟩ := hwant
  have hwantfin : ∀ w ∈ want, ∃ i, w = i % 65536 ∧ S ≤ i ∧ i + wait < idx p ∧ ∀ q ∈ arrived, idx q ≠ i := by
    intro w hw
    obtain ⟨i, a, b, c, d⟩ := hW3 w hw
    refine ⟨i, a, by omega, c, ?_⟩
    intro q hq hqi
    obtain ⟨r, hr, hri⟩ := hi.comp q hq (by omega)
    exact bufHas_false.mp d r hr (by rw [hidx, hri, hqi])
  have hreach : ∀ i, T ≤ i → (∀ j, T ≤ j → j ≤ i → ∃ q ∈ arrived, idx q = j) → i < T + dout.length := by
    intro i hTi hall
    refine Nat.lt_of_not_le fun hle => ?_
    obtain ⟨q, hq, hqi⟩ := hall (T + dout.length) (by omega) hle
    obtain ⟨r, hr, hri⟩ := hi.comp q hq (by omega)
    rcases e6 r hr with h | h
    · exact e5 r h (by omega)
    · omega
  have hadd : addPacket seqOf drop wait s p =
      (sorterWanted (sorterPlace seqOf ⟨(T + dout.length) % 65536, W2 % 65536, s.first, s.pre && !decide (5 ≤ s.buf.length), buf'⟩ p).1,
        dout ++ (sorterPlace seqOf ⟨(T + dout.length) % 65536, W2 % 65536, s.first, s.pre && !decide (5 ≤ s.buf.length), buf'⟩ p).2, want) := by
    unfold addPacket
    rw [hs1, hs2]
    simp only
    rw [hwl, e1]
  have hsortd : buf'.Pairwise fun a b => seqOf a < seqOf b := hi.sorted.sublist e4
  have hmem' : ∀ q ∈ buf', q ∈ arrived ++ [p] ∧ L ≤ idx q ∧ idx q + 1 ≤ U := by
    intro q hq
    have := hi.mem q (e4.mem hq)
    exact ⟨List.mem_append_left _ this.1, this.2⟩
  have hpre' : (s.pre && !decide (5 ≤ s.buf.length)) = true → ∀ q ∈ s.buf, T ≤ idx q := by
    intro h q hq
    simp only [Bool.and_eq_true, Bool.not_eq_true', decide_eq_false_iff_not] at h
    have hTS : T = S := by
      rw [← hT, skipTo, h.1, if_pos rfl, if_neg h.2]
    rw [hTS]
    exact hi.pre h.1 q hq
  have hcomp' : ∀ q ∈ arrived, T + dout.length ≤ idx q → ∃ r ∈ buf', idx r = idx q := by
    intro q hq hle
    obtain ⟨r, hr, hri⟩ := hi.comp q hq (by omega)
    rcases e6 r hr with h | h
    · exact ⟨r, h, hri⟩
    · omega
  have hdout : ∀ q ∈ dout, q ∈ arrived ++ [p] := fun q hq => List.mem_append_left _ (hi.mem q (e3 q hq)).1
  have hge : ∀ {l : List P}, (∀ q ∈ l, T ≤ idx q) → (∀ q ∈ buf', q ∈ l) → ∀ q ∈ buf', T + dout.length < idx q := by
    intro l h1 h2 q hq
    have := h1 q (h2 q hq)
    have := e7 q hq
    omega
  rw [hadd]
  unfold sorterPlace
  simp only
  by_cases hin : idx p = T + dout.length
  · -- in order
    rw [if_pos (by rw [hidx, hin])]
    simp only
    rw [show ((T + dout.length) % 65536 + 1) % 65536 = (T + (dout.length + 1)) % 65536 by omega]
    rw [sorterWanted_eq hU _ (T + (dout.length + 1)) W2 rfl rfl (by omega) (by omega) (by omega) hW2]
    refine ⟨_, dout ++ [p], want, rfl, ?_, hS1, hS2, ?_, ?_, hwantfin, ?_, ?_, rfl, fun _ => ⟨p, by simp, rfl⟩⟩
    · rw [List.length_append, List.length_singleton]
      refine ⟨hi.first, rfl, by omega, by omega, ⟨_, rfl, Nat.le_max_right .., Nat.max_le.mpr ⟨hW2, by omega⟩⟩, hsortd, hmem', ?_, ?_⟩
      · intro q hq hle
        rcases List.mem_append.mp hq with hq | hq
        · exact hcomp' q hq (by omega)
        · rw [List.mem_singleton] at hq
          subst hq
          omega
      · intro h q hq
        have := hge (hpre' h) (fun q h => e4.mem h) q hq
        omega
    · rw [List.map_append, e2, List.length_append, List.length_singleton, List.range'_concat]
      simp [hin]
    · intro q hq
      rcases List.mem_append.mp hq with hq | hq
      · exact hdout q hq
      · exact List.mem_append_right _ hq
    · intro i h1 h2
      have := hreach i h1 h2
      rw [List.length_append]
      omega
    · intro h q hq
      have := hge h (fun q h => e4.mem h) q hq
      rw [List.length_append, List.length_singleton]
      omega
  · rw [if_neg (by
      intro e
      rw [hidx] at e
      exact hin (mod_inj (L := L) (U := U) ⟨hp1, by omega⟩ ⟨by omega, e8⟩ hU e)), hidx p, d16_eq _ _ (by omega) (by omega)]
    by_cases hearly : T + dout.length < idx p
    · -- early
      rw [if_pos (by omega)]
      simp only [List.append_nil]
      rw [sorterWanted_eq hU _ (T + dout.length) W2 rfl rfl (by omega) (by omega) (by omega) hW2]
      refine ⟨_, dout, want, rfl, ?_, hS1, hS2, e2, hdout, hwantfin, hreach, ?_, rfl,
        fun _ => ⟨p, List.mem_append_right _ (bufPut_self ..), rfl⟩⟩
      · refine ⟨hi.first, rfl, by omega, by omega, ⟨_, rfl, Nat.le_max_right .., Nat.max_le.mpr ⟨hW2, by omega⟩⟩, bufPut_sorted _ hsortd, ?_, ?_, ?_⟩
        · intro q hq
          rcases mem_bufPut hq with rfl | hq
          · exact ⟨by simp, hp1, hp2⟩
          · exact hmem' q hq
        · intro q hq hle
          rcases List.mem_append.mp hq with hq | hq
          · obtain ⟨r, hr, hri⟩ := hcomp' q hq hle
            rcases bufPut_keep (seqOf := seqOf) p r hr with h | h
            · exact ⟨r, h, hri⟩
            · refine ⟨p, bufPut_self .., ?_⟩
              rw [← hri]
              refine mod_inj (L := L) (U := U) ⟨hp1, by omega⟩ (by have := hmem' r hr; omega) hU ?_
              rw [← hidx, ← hidx, h]
          · rw [List.mem_singleton] at hq
            subst hq
            exact ⟨_, bufPut_self .., rfl⟩
        · intro h q hq
          rcases mem_bufPut hq with rfl | hq
          · omega
          · have := hge (hpre' h) (fun q h => e4.mem h) q hq
            omega
      · intro h q hq
        rcases mem_bufPut hq with rfl | hq
        · omega
        · have := hge h (fun q h => e4.mem h) q hq
          omega
    · -- late
      rw [if_neg (by omega)]
      simp only [List.append_nil]
      rw [sorterWanted_eq hU _ (T + dout.length) W2 rfl rfl (by omega) (by omega) (by omega) hW2]
      refine ⟨_, dout, want, rfl, ?_, hS1, hS2, e2, hdout, hwantfin, hreach, ?_, rfl, ?_⟩
      · refine ⟨hi.first, rfl, by omega, by omega, ⟨_, rfl, Nat.le_max_right .., Nat.max_le.mpr ⟨hW2, by omega⟩⟩, hsortd, hmem', ?_, ?_⟩
        · intro q hq hle
          rcases List.mem_append.mp hq with hq | hq
          · exact hcomp' q hq hle
          · rw [List.mem_singleton] at hq
            subst hq
            omega
        · intro h q hq
          have := hge (hpre' h) (fun q h => e4.mem h) q hq
          omega
      · intro h q hq
        have := hge h (fun q h => e4.mem h) q hq
        omega
      · intro hle
        have : idx p ∈ dout.map idx := by
          rw [e2, List.mem_range'_1]
          omega
        obtain ⟨q, hq, hqi⟩ := List.mem_map.mp this
        exact ⟨q, List.mem_append_left _ hq, hqi⟩

end
end Verif.Rtp
