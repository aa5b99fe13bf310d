import Verif.Play.Run

/-!
# Seeking, and tracks that grow
-/
namespace Verif.Play
open Spec

/-! ## Finding the key of a position -/

theorem span_keys (s : Nat) (K : List (List Pkt)) : ∃ X Y, K = X ++ Y ∧ (∀ g ∈ X, firstTime g ≤ s) ∧ (∀ g0 Y0, Y = g0 :: Y0 → s < firstTime g0) := by
  induction K with
  | nil => exact ⟨[], [], rfl, by simp, by simp⟩
  | cons g K ih =>
    by_cases hg : firstTime g ≤ s
    · obtain ⟨X, Y, rfl, h1, h2⟩ := ih
      refine ⟨g :: X, Y, rfl, ?_, h2⟩
      intro x hx
      rcases List.mem_cons.1 hx with rfl | hx
      · exact hg
      · exact h1 x hx
    · refine ⟨[], g :: K, rfl, by simp, ?_⟩
      intro g0 Y0 h0
      obtain ⟨rfl, rfl⟩ := List.cons.inj h0
      omega

/-- The key where a viewer that seeks to `s` starts to look. -/
theorem seek_key (T : Track) (hT : Good T) (s : Nat) : ∃ X g Y, T.pages.flatten = X ++ g :: Y ∧ keyNumForTime (source T) s = some (T.n + X.length) ∧
    (∀ x ∈ X.flatten, x.time < s ∨ (firstTime g > s ∧ X = [])) ∧ (firstTime g ≤ s → s ≤ lastTime g ∨ Y = []) := by
  obtain ⟨X, Y, hK, h1, h2⟩ := span_keys s T.pages.flatten
  have hkey : ∀ g ∈ X ++ Y, g ≠ [] := by rw [← hK]; exact hT.key
  have hup : Up (X.flatten ++ Y.flatten) := by
    have := hT.time
    unfold packets at this
    rw [hK, List.flatten_append] at this
    exact this
  have hne : X ++ Y ≠ [] := by
    intro h0
    rw [h0] at hK
    have := hT.pages
    cases hG : T.pages with
    | nil => exact this hG
    | cons p G =>
      have hp := hT.page p (by rw [hG]; simp)
      rw [hG, List.flatten_cons] at hK
      exact hp (List.append_eq_nil_iff.1 hK).1
  have hle : ∀ k ∈ keyTable none X, k.time ≤ s := by
    have gen : ∀ (prev : Option Nat) (L : List (List Pkt)), (∀ g ∈ L, firstTime g ≤ s) → ∀ k ∈ keyTable prev L, k.time ≤ s := by
      intro prev L
      induction L generalizing prev with
      | nil => intro _ k hk; cases hk
      | cons g L ih =>
        intro hL k hk
        simp only [keyTable, List.mem_cons] at hk
        rcases hk with rfl | hk
        · exact hL g (by simp)
        · exact ih _ (fun g hg => hL g (by simp [hg])) k hk
    exact gen none X h1
  have hnum : keyNumForTime (source T) s = some (keyNumLoop s (keyTable (prevOf none X) Y) (T.n + X.length) (if X = [] then T.n else T.n + X.length - 1)) := by
    unfold keyNumForTime
    have hkn : (source T).keys ≠ [] := by
      intro h0
      have h3 : (keyTable none T.pages.flatten).length = 0 := by
        show (source T).keys.length = 0
        rw [h0]; rfl
      rw [keyTable_length, hK] at h3
      exact hne (List.length_eq_zero_iff.1 h3)
    cases hks : (source T).keys with
    | nil => exact absurd hks hkn
    | cons k0 ks =>
      rw [← hks]
      simp only
      congr 1
      show keyNumLoop s (keyTable none T.pages.flatten) T.n T.n = _
      rw [hK, keyTable_append, keyNumLoop_le s _ _ _ _ hle, keyTable_length]
      have : (keyTable none X = []) ↔ X = [] := by
        constructor
        · intro h0
          have := congrArg List.length h0
          rw [keyTable_length] at this
          exact List.length_eq_zero_iff.1 this
        · intro h0; rw [h0]; rfl
      simp only [this]
  rw [hnum]
  cases Y with
  | nil =>
    have hX : X ≠ [] := by simpa using hne
    rcases List.eq_nil_or_concat X with h0 | ⟨X', g, h0⟩
    · exact absurd h0 hX
    · rw [List.concat_eq_append] at h0
      subst h0
      refine ⟨X', g, [], by rw [hK]; simp, ?_, ?_, fun _ => Or.inr rfl⟩
      · rw [if_neg hX]
        simp only [keyTable, keyNumLoop, List.length_append, List.length_singleton]
        congr 1
      · intro x hx
        left
        obtain ⟨y, hy, hy2⟩ := firstTime_mem (hkey g (by simp))
        have := h1 g (by simp)
        rw [List.flatten_nil, List.append_nil, List.flatten_append] at hup
        have := (List.pairwise_append.1 hup).2.2 x hx y (by simpa using hy)
        omega
  | cons g0 Y0 =>
    have hg0 := h2 g0 Y0 rfl
    have hgne : g0 ≠ [] := hkey g0 (by simp)
    obtain ⟨y, hy, hy2⟩ := firstTime_mem hgne
    obtain ⟨z, hz, hz2⟩ := lastTime_mem hgne
    have hupY := (List.pairwise_append.1 hup).2.1
    rw [List.flatten_cons] at hupY
    have hfl : s < lastTime g0 := by
      have := le_lastTime (List.pairwise_append.1 hupY).1 y hy
      omega
    have hrest : ∀ i res, keyNumLoop s (keyTable (some (lastTime g0)) Y0) i res = res := by
      intro i res
      refine keyNumLoop_gt s _ i res (fun k hk => ?_)
      obtain ⟨h3, d, h4, h5⟩ := keyTable_after (lastTime g0) Y0 (fun g hg => hkey g (by simp [hg])) (List.pairwise_append.1 hupY).2.1
        (fun x hx => by rw [← hz2]; exact (List.pairwise_append.1 hupY).2.2 z hz x hx) k hk
      exact ⟨by omega, d, h4, by omega⟩
    by_cases hX : X = []
    · subst hX
      refine ⟨[], g0, Y0, hK, ?_, by simp, fun h0 => by omega⟩
      simp only [prevOf, List.getLast?_nil, keyTable, keyNumLoop, Option.map_none, if_true]
      rw [if_pos hg0, hrest]
      simp
    · have hkX : ∀ g ∈ X, g ≠ [] := fun g hg => hkey g (by simp [hg])
      rw [prevOf_last X hX hkX, if_neg hX]
      have hXf : X.flatten ≠ [] := flatten_ne hX hkX
      obtain ⟨w, hw, hw2⟩ := lastTime_mem hXf
      have hwlt : w.time < y.time := (List.pairwise_append.1 hup).2.2 w hw y (by rw [List.flatten_cons]; exact List.mem_append_left _ hy)
      simp only [keyTable, keyNumLoop, Option.map_some]
      rw [if_pos hg0, hrest]
      by_cases hL : lastTime X.flatten < s
      · rw [if_pos (by omega)]
        refine ⟨X, g0, Y0, hK, rfl, ?_, fun h0 => by omega⟩
        intro x hx
        left
        have := le_lastTime (List.pairwise_append.1 hup).1 x hx
        omega
      · rw [if_neg (by omega)]
        rcases List.eq_nil_or_concat X with h0 | ⟨X', g, h0⟩
        · exact absurd h0 hX
        · rw [List.concat_eq_append] at h0
          subst h0
          have hgn := hkey g (by simp)
          have hlg : lastTime (X' ++ [g]).flatten = lastTime g := by
            rw [List.flatten_append, lastTime_append _ _ (by simp [hgn])]
            simp
          refine ⟨X', g, g0 :: Y0, by rw [hK]; simp, ?_, ?_, fun _ => Or.inl (by omega)⟩
          · simp only [List.length_append, List.length_singleton]
            congr 1
          · intro x hx
            left
            obtain ⟨v, hv, hv2⟩ := firstTime_mem hgn
            have := h1 g (by simp)
            have hupX := (List.pairwise_append.1 hup).1
            rw [List.flatten_append] at hupX
            have := (List.pairwise_append.1 hupX).2.2 x hx v (by simpa using hv)
            omega

/-- The page of a key. -/
theorem page_of_key (G : Pages) (X : List (List Pkt)) (g : List Pkt) (Y : List (List Pkt)) (h : G.flatten = X ++ g :: Y) :
    ∃ A P Q B, G = A ++ (P ++ g :: Q) :: B ∧ X = A.flatten ++ P ∧ Y = Q ++ B.flatten := by
  induction G generalizing X with
  | nil => simp at h
  | cons p G ih =>
    rw [List.flatten_cons] at h
    rcases List.append_eq_append_iff.1 h with ⟨a, ha, hb⟩ | ⟨c, hc, hd⟩
    · obtain ⟨A, P, Q, B, h1, h2, h3⟩ := ih a hb
      exact ⟨p :: A, P, Q, B, by rw [h1]; rfl, by rw [ha, h2, List.flatten_cons, List.append_assoc], h3⟩
    · cases c with
      | nil =>
        rw [List.append_nil] at hc
        rw [List.nil_append] at hd
        obtain ⟨A, P, Q, B, h1, h2, h3⟩ := ih [] hd.symm
        have hA := List.append_eq_nil_iff.1 h2.symm
        exact ⟨p :: A, P, Q, B, by rw [h1]; rfl, by rw [List.flatten_cons, hA.1, hA.2, hc]; simp, h3⟩
      | cons g' Q =>
        rw [List.cons_append] at hd
        obtain ⟨rfl, rfl⟩ := List.cons.inj hd
        exact ⟨[], X, Q, G, by rw [hc]; rfl, by simp, rfl⟩

/-! ## Looking for the packet on the page -/

theorem span_packets (s : Nat) (l : List Pkt) : ∃ a b, l = a ++ b ∧ (∀ x ∈ a, x.time < s) ∧ (∀ q r, b = q :: r → s ≤ q.time) := by
  induction l with
  | nil => exact ⟨[], [], rfl, by simp, by simp⟩
  | cons x l ih =>
    by_cases hx : x.time < s
    · obtain ⟨a, b, rfl, h1, h2⟩ := ih
      refine ⟨x :: a, b, rfl, ?_, h2⟩
      intro y hy
      rcases List.mem_cons.1 hy with rfl | hy
      · exact hx
      · exact h1 y hy
    · refine ⟨[], x :: l, rfl, by simp, ?_⟩
      intro q r h0
      obtain ⟨rfl, rfl⟩ := List.cons.inj h0
      omega

theorem seekLoop_skip (s : Nat) (a b : List Pkt) (off t : Nat) (h : ∀ x ∈ a, x.time < s) :
    seekLoop s (a ++ b) off t = seekLoop s b (off + a.length) (if a = [] then t else lastTime a) := by
  induction a generalizing off t with
  | nil => rfl
  | cons x a ih =>
    simp only [List.cons_append, seekLoop]
    rw [if_pos (h x (by simp)), ih _ _ (fun y hy => h y (by simp [hy]))]
    simp only [List.length_cons, reduceCtorEq, if_false]
    rw [show off + 1 + a.length = off + (a.length + 1) by omega]
    congr 1
    by_cases ha : a = []
    · rw [if_pos ha, ha]; rfl
    · rw [if_neg ha, show x :: a = [x] ++ a from rfl, lastTime_append _ _ ha]

/-- The packets before a time. -/
def upTo (s : Nat) (l : List Pkt) : List Pkt := l.filter (fun p => decide (p.time < s))

theorem upTo_append (s : Nat) (a b : List Pkt) (h1 : ∀ x ∈ a, x.time < s) (h2 : ∀ x ∈ b, s ≤ x.time) : upTo s (a ++ b) = a := by
  unfold upTo
  rw [List.filter_append, List.filter_eq_self.2 (fun x hx => by simp [h1 x hx]), List.filter_eq_nil_iff.2 (fun x hx => by have := h2 x hx; simp; omega),
    List.append_nil]

theorem from_append (s : Nat) (a b : List Pkt) (h1 : ∀ x ∈ a, x.time < s) (h2 : ∀ x ∈ b, s ≤ x.time) : from_ s (a ++ b) = b := by
  unfold from_
  rw [List.filter_append, List.filter_eq_nil_iff.2 (fun x hx => by have := h1 x hx; simp; omega), List.filter_eq_self.2 (fun x hx => by simp [h2 x hx]),
    List.nil_append]

/-- A seek puts an entry in the sorter that stands at the first packet from the position on. -/
theorem seek_place (T : Track) (hT : Good T) (tid : Nat) (junk : Bool) (st : State) (hs : st.src tid = source T) (pos : Nat)
    (hmode : st.sync = true ∨ st.live = false ∨ 0 < min pos T.now) (hlive : st.live = false → T.now = lastTime (packets T.pages)) :
    ∃ e c A p B rest, e.tid = tid ∧
      seek st tid junk pos = ({ st with cur := (fun t => if t = tid then c else st.cur t), buf := put st.sync e st.buf }, true) ∧
      Place T st.live e c A p B (upTo (min pos T.now) (packets T.pages)) rest ∧ (pos ≤ lastTime (packets T.pages) → e.ghost = false) := by
  unfold seek
  rw [hs]
  simp only
  have hmin : (if (source T).nowms < pos then (source T).nowms else pos) = min pos T.now := by
    show (if T.now < pos then T.now else pos) = _
    rw [Nat.min_def]
    split <;> split <;> omega
  rw [hmin]
  generalize hsdef : min pos T.now = s at hmode ⊢
  have hsn : s ≤ T.now := by rw [← hsdef]; exact Nat.min_le_right _ _
  have hsp : s ≤ pos := by rw [← hsdef]; exact Nat.min_le_left _ _
  have has : asyncPos st (source T) (keyTime (source T) (source T).first) s = s := by
    unfold asyncPos
    rw [if_neg]
    rcases hmode with h | h | h
    · simp [h]
    · simp [h]
    · simp; omega
  rw [has]
  obtain ⟨X, g, Y, hK, hnum, hX, hg⟩ := seek_key T hT s
  rw [hnum]
  simp only
  rw [key_time X g Y hK]
  obtain ⟨A, P, Q, B, hG, hXA, hYB⟩ := page_of_key T.pages X g Y hK
  have hat : At T A (P ++ g :: Q) B := ⟨hT, hG⟩
  have hload : loadPage st.live (source T) (st.cur tid) (T.n + X.length) = some (numAt T A) := by
    refine hat.load st.live _ ?_ ?_
    · rw [hXA, List.length_append]; unfold numAt; omega
    · rw [hXA]; simp only [List.length_append, List.length_cons, numAt]; omega
  rw [hload, hat.mapped]
  simp only
  have hgne : g ≠ [] := hT.key g (by rw [hK]; simp)
  have hup := hat.up
  -- the position is moved to the key
  generalize hpdef : (if firstTime g > s then firstTime g else s) = s'
  have hs' : s ≤ s' := by rw [← hpdef]; split <;> omega
  obtain ⟨a, b, hab, ha, hb⟩ := span_packets s' (P ++ g :: Q).flatten
  have hab2 := hab
  rw [hab] at hup
  -- packets before the key's page and before the place are early, the others are not
  have hpg : (P ++ g :: Q).flatten = P.flatten ++ (g ++ Q.flatten) := by simp
  have hXlt : ∀ x ∈ X.flatten, x.time < s := by
    intro x hx
    rcases hX x hx with h | ⟨_, h⟩
    · exact h
    · rw [h] at hx; cases hx
  have hAlt : ∀ x ∈ packets A, x.time < s := fun x hx => hXlt x (by rw [hXA, List.flatten_append]; exact List.mem_append_left _ hx)
  obtain ⟨v, hv, hv2⟩ := firstTime_mem hgne
  have halt : ∀ x ∈ a, x.time < s := by
    intro x hx
    have h1 := ha x hx
    by_cases hgs : firstTime g > s
    · rw [if_pos hgs] at hpdef
      -- x is before g on the page
      have hxp : x ∈ (P ++ g :: Q).flatten := by rw [hab]; exact List.mem_append_left _ hx
      rw [hpg] at hxp
      rcases List.mem_append.1 hxp with hxp | hxp
      · exact hXlt x (by rw [hXA, List.flatten_append]; exact List.mem_append_right _ hxp)
      · exfalso
        have hupp := hat.upPage
        rw [hpg] at hupp
        have h2 := (List.pairwise_append.1 hupp).2.1
        have h3 := firstTime_le h2 x hxp
        rw [firstTime_append _ _ hgne] at h3
        omega
    · rw [if_neg hgs] at hpdef
      omega
  have hbge : ∀ x ∈ b ++ packets B, s' ≤ x.time := by
    intro x hx
    cases hbb : b with
    | nil =>
      rw [hbb, List.nil_append] at hx
      -- nothing found on the page: then there is nothing after it
      exfalso
      rw [hbb, List.append_nil] at hab
      have hvp : v ∈ a := by rw [← hab, hpg]; exact List.mem_append_right _ (List.mem_append_left _ hv)
      have h1 := ha v hvp
      by_cases hgs : firstTime g > s
      · rw [if_pos hgs] at hpdef; omega
      · rw [if_neg hgs] at hpdef
        rcases hg (by omega) with h2 | h2
        · obtain ⟨w, hw, hw2⟩ := lastTime_mem hgne
          have := ha w (by rw [← hab, hpg]; exact List.mem_append_right _ (List.mem_append_left _ hw))
          omega
        · rw [h2] at hYB
          have hB : B.flatten = [] := (List.append_eq_nil_iff.1 hYB.symm).2
          unfold packets at hx
          rw [hB] at hx
          cases hx
    | cons q r =>
      have hq := hb q r hbb
      rw [hbb] at hx hup
      have h2 := (List.pairwise_append.1 hup).2.1
      rw [List.append_assoc] at h2
      have h3 := firstTime_le (List.pairwise_append.1 h2).2.1 x hx
      rw [List.cons_append, firstTime_cons] at h3
      omega
  have hskip : upTo s (packets T.pages) = packets A ++ a := by
    rw [hG, packets_split, hab, List.append_assoc, ← List.append_assoc (packets A)]
    refine upTo_append s _ _ ?_ ?_
    · intro x hx
      rcases List.mem_append.1 hx with hx | hx
      · exact hAlt x hx
      · exact halt x hx
    · intro x hx
      have := hbge x hx
      omega
  have htake : (P ++ g :: Q).flatten.take a.length = a := by rw [hab]; simp
  have hdrop : (P ++ g :: Q).flatten.drop a.length = b := by rw [hab]; simp
  have hlen : a.length ≤ (P ++ g :: Q).flatten.length := by rw [hab]; simp
  rw [hab, seekLoop_skip s' a b 0 0 ha, Nat.zero_add, hskip]
  cases hbb : b with
  | cons q r =>
    have hq := hb q r hbb
    simp only [seekLoop]
    rw [if_neg (by omega)]
    simp only [seekEntry, if_true]
    refine ⟨⟨tid, q.time, a.length, false, junk⟩, some (numAt T A), A, P ++ g :: Q, B, b ++ packets B, rfl, rfl, ?_, fun _ => rfl⟩
    refine { toAt := hat, isCur := rfl, off := hlen, isDone := by rw [htake], isRest := by rw [hdrop], past := ?_, future := ?_,
             ghost := (fun h => by cases h), more := (fun _ => by rw [hbb]; simp), exact := ?_ }
    · intro x hx
      have : x.time < s := by
        rcases List.mem_append.1 hx with hx | hx
        · exact hAlt x hx
        · exact halt x hx
      show x.time < q.time
      omega
    · intro x hx
      have h2 := (List.pairwise_append.1 hup).2.1
      rw [List.append_assoc] at h2
      have h3 := firstTime_le (List.pairwise_append.1 h2).2.1 x hx
      rw [hbb, List.cons_append, firstTime_cons] at h3
      exact h3
    · intro _ _
      rw [hbb]
      rfl
  | nil =>
    simp only [seekLoop]
    rw [hbb, List.append_nil] at hab
    have hane : a ≠ [] := by rw [← hab]; exact hat.flatNe
    rw [if_neg hane]
    have hgs : ¬ firstTime g > s := by
      intro hgs
      rw [if_pos hgs] at hpdef
      have := ha v (by rw [← hab, hpg]; exact List.mem_append_right _ (List.mem_append_left _ hv))
      omega
    rw [if_neg hgs] at hpdef
    have hY : Y = [] := by
      rcases hg (by omega) with h2 | h2
      · obtain ⟨w, hw, hw2⟩ := lastTime_mem hgne
        have := ha w (by rw [← hab, hpg]; exact List.mem_append_right _ (List.mem_append_left _ hw))
        omega
      · exact h2
    have hBf : B.flatten = [] := by rw [hY] at hYB; exact (List.append_eq_nil_iff.1 hYB.symm).2
    have hBp : packets B = [] := by unfold packets; rw [hBf]; rfl
    have hlast : lastTime (packets T.pages) = lastTime a := by
      rw [hG, packets_split, hBp, List.append_nil, lastTime_append _ _ hat.flatNe, hab]
    obtain ⟨w, hw, hw2⟩ := lastTime_mem hane
    have hwlt := ha w hw
    have hlm : (source T).lastms = lastTime a := hlast
    simp only [seekEntry]
    rw [if_neg (by simp), if_pos ⟨by omega, by show T.now > _; omega⟩]
    simp only
    have hlv : st.live = true := by
      cases h : st.live with
      | true => rfl
      | false => have := hlive h; omega
    refine ⟨⟨tid, T.now, a.length, true, true⟩, some (numAt T A), A, P ++ g :: Q, B, [], rfl, rfl, ?_, fun h => by exfalso; omega⟩
    refine { toAt := hat, isCur := rfl, off := hlen, isDone := by rw [htake], isRest := ?_, past := ?_, future := (fun x hx => by cases hx),
             ghost := (fun _ => ⟨hlv, Nat.le_refl _⟩), more := (fun h => by cases h), exact := (fun h => by cases h) }
    · show (P ++ g :: Q).flatten.drop a.length ++ packets B = []
      rw [hdrop, hbb, hBp]
      rfl
    · intro x hx
      have : x.time < s := by
        rcases List.mem_append.1 hx with hx | hx
        · exact hAlt x hx
        · exact halt x hx
      show x.time < T.now
      omega

end Verif.Play
