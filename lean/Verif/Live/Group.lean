import Verif.Live.Spec
import Verif.Index.Props

/-! # There is one way to cut a stream into keys -/
namespace Verif.Live
open Verif.Index (Group Packet first Starts Grouped)

/-- The keys are cut where they should be. -/
def Cut (v : Bool) : List Group → Prop
  | [] => True
  | g :: r => g ≠ [] ∧ (∀ q ∈ g.tail, ¬ Starts v (first g) q) ∧ (∀ h, r.head? = some h → ∃ q, h.head? = some q ∧ Starts v (first g) q) ∧ Cut v r

theorem cut_of (v : Bool) (ks : List Group) (h1 : ∀ g ∈ ks, g ≠ []) (h2 : ∀ g ∈ ks, ∀ q ∈ g.tail, ¬ Starts v (first g) q)
    (h3 : ∀ k g h, ks[k]? = some g → ks[k + 1]? = some h → ∃ q, h.head? = some q ∧ Starts v (first g) q) : Cut v ks := by
  induction ks with
  | nil => trivial
  | cons g r ih =>
    refine ⟨h1 g (by simp), h2 g (by simp), ?_, ih (fun x hx => h1 x (by simp [hx])) (fun x hx => h2 x (by simp [hx])) ?_⟩
    · intro h hh
      exact h3 0 g h (by simp) (by simpa [List.head?_eq_getElem?] using hh)
    · intro k x y hx hy
      exact h3 (k + 1) x y (by simpa using hx) (by simpa using hy)

theorem cut_grouped {v m fs} (h : Grouped v m fs) : Cut v fs.flatten := cut_of v _ h.keys h.inside h.starts

theorem cut_contra {v : Bool} {a b c : Group} {r : List Group} (ha : Cut v (a :: r)) (hb : ∀ q ∈ b.tail, ¬ Starts v (first b) q)
    (he : b = a ++ c) (hc : c ≠ []) (hr : ∃ x, r.flatten = c ++ x) : False := by
  obtain ⟨hne, _, hs, hcut⟩ := ha
  obtain ⟨x, hx⟩ := hr
  cases r with
  | nil => simp at hx; exact hc hx.1
  | cons h r =>
    obtain ⟨q, hq, hst⟩ := hs h rfl
    have hh : h ≠ [] := hcut.1
    obtain ⟨q', h', rfl⟩ : ∃ p r, h = p :: r := ⟨_, _, (List.cons_head_tail hh).symm⟩
    obtain ⟨y, c', rfl⟩ : ∃ p r, c = p :: r := ⟨_, _, (List.cons_head_tail hc).symm⟩
    obtain ⟨z, a', rfl⟩ : ∃ p r, a = p :: r := ⟨_, _, (List.cons_head_tail hne).symm⟩
    simp only [List.head?_cons, Option.some.injEq] at hq
    simp only [List.flatten_cons, List.cons_append, List.cons.injEq] at hx
    subst he
    refine hb q (by rw [← hq, hx.1]; simp) ?_
    simpa [Index.first_cons] using hst

theorem cut_unique (v : Bool) (a b : List Group) (ha : Cut v a) (hb : Cut v b) (h : a.flatten = b.flatten) : a = b := by
  induction a generalizing b with
  | nil =>
    cases b with
    | nil => rfl
    | cons g r => simp at h; exact absurd h.1 hb.1
  | cons g r ih =>
    cases b with
    | nil => simp at h; exact absurd h.1 ha.1
    | cons g' r' =>
      simp only [List.flatten_cons] at h
      have hg : g = g' := by
        rcases List.append_eq_append_iff.mp h with ⟨c, h1, h2⟩ | ⟨c, h1, h2⟩
        · by_cases hc : c = []
          · subst hc; simpa using h1.symm
          · exact (cut_contra ha hb.2.1 h1 hc ⟨_, h2⟩).elim
        · by_cases hc : c = []
          · subst hc; simpa using h1
          · exact (cut_contra hb ha.2.1 h1 hc ⟨_, h2⟩).elim
      subst hg
      rw [ih r' ha.2.2.2 hb.2.2.2 (List.append_cancel_left h)]

theorem cut_append {v : Bool} {a : List Group} {g : Group} (h : Cut v (a ++ [g])) {p : Packet} :
    (Starts v (first g) p → Cut v (a ++ [g] ++ [[p]])) ∧ (¬ Starts v (first g) p → Cut v (a ++ [g ++ [p]])) := by
  induction a with
  | nil =>
    obtain ⟨h1, h2, _, _⟩ := h
    constructor
    · intro hs
      refine ⟨h1, h2, ?_, by simp, by simp, by simp, trivial⟩
      intro x hx
      simp at hx; subst hx; exact ⟨p, rfl, hs⟩
    · intro hs
      refine ⟨by simp, ?_, by simp, trivial⟩
      rw [Index.first_append h1, List.tail_append_of_ne_nil h1]
      intro q hq
      rcases List.mem_append.mp hq with hq | hq
      · exact h2 q hq
      · simp at hq; subst hq; exact hs
  | cons x r ih =>
    obtain ⟨h1, h2, h3, h4⟩ := h
    obtain ⟨i1, i2⟩ := ih h4
    refine ⟨fun hs => ⟨h1, h2, ?_, i1 hs⟩, fun hs => ⟨h1, h2, ?_, i2 hs⟩⟩
    · intro y hy
      refine h3 y ?_
      cases r <;> simpa using hy
    · intro y hy
      cases r with
      | nil =>
        simp at hy; subst hy
        obtain ⟨q, hq, hst⟩ := h3 g rfl
        exact ⟨q, by rw [Index.head_append]; exact hq; intro hg; rw [hg] at hq; simp at hq, hst⟩
      | cons z r => exact h3 y (by simpa using hy)

open Index in
/-- The keys after another packet. -/
theorem keys_step {t : Track} {fs fs' : List (List Group)} {d e : Nat} {p : Packet} {t' : Track} (h : Inv t fs d e) (h' : Inv t' fs' d e)
    (hv : t'.video = t.video) (hfl : fs'.flatten.flatten = fs.flatten.flatten ++ [p]) :
    (fs.flatten = [] → fs'.flatten = [[p]]) ∧
    ∀ ks g, fs.flatten = ks ++ [g] → (Starts t.video (first g) p → fs'.flatten = ks ++ [g] ++ [[p]]) ∧
      (¬ Starts t.video (first g) p → fs'.flatten = ks ++ [g ++ [p]]) := by
  have hc := cut_grouped h.grouped
  have hc' := cut_grouped h'.grouped
  rw [hv] at hc'
  refine ⟨fun hz => ?_, fun ks g hk => ?_⟩
  · refine cut_unique _ _ _ hc' ⟨by simp, by simp, by simp, trivial⟩ ?_
    rw [hfl, hz]; rfl
  · rw [hk] at hc
    refine ⟨fun hs => cut_unique _ _ _ hc' ((cut_append hc).1 hs) ?_, fun hs => cut_unique _ _ _ hc' ((cut_append hc).2 hs) ?_⟩
    · rw [hfl, hk]; simp
    · rw [hfl, hk]; simp

end Verif.Live
