import Verif.Crc.Model
import Verif.Crc.Spec
import Mathlib.Tactic.Ring
import Mathlib.Tactic.LinearCombination
import Mathlib.Algebra.Polynomial.Degree.Lemmas
import Mathlib.Algebra.CharP.Two
import Mathlib.Algebra.Field.ZMod

/-! # The shift register on lists of bits -/
namespace Verif.Crc
open Polynomial Spec

/-- Bitwise exclusive or of two bit strings. -/
def xorL (a b : List Bool) : List Bool := List.zipWith (fun x y => x ^^ y) a b

def zeros (n : Nat) : List Bool := List.replicate n false

@[simp] theorem xorL_length (a b : List Bool) : (xorL a b).length = min a.length b.length := by
  simp [xorL]
@[simp] theorem zeros_length (n : Nat) : (zeros n).length = n := by simp [zeros]
@[simp] theorem xorL_nil (a : List Bool) : xorL [] a = [] := by simp [xorL]
@[simp] theorem xorL_nil' (a : List Bool) : xorL a [] = [] := by simp [xorL]
@[simp] theorem xorL_cons (x y : Bool) (a b : List Bool) : xorL (x :: a) (y :: b) = (x ^^ y) :: xorL a b := by
  simp [xorL]

theorem zeros_succ (n : Nat) : zeros (n + 1) = false :: zeros n := rfl
theorem zeros_succ' (n : Nat) : zeros (n + 1) = zeros n ++ [false] := by
  simp [zeros, List.replicate_succ']

theorem xorL_append {a b c d : List Bool} (h : a.length = b.length) :
    xorL (a ++ c) (b ++ d) = xorL a b ++ xorL c d := by
  simp [xorL, List.zipWith_append h]

theorem xorL_comm (a b : List Bool) : xorL a b = xorL b a := by
  induction a generalizing b with
  | nil => simp
  | cons x a ih => cases b <;> simp [ih, Bool.xor_comm]

theorem xorL_assoc (a b c : List Bool) : xorL (xorL a b) c = xorL a (xorL b c) := by
  induction a generalizing b c with
  | nil => simp
  | cons x a ih => cases b <;> cases c <;> simp [ih]

theorem xorL_zeros {a : List Bool} {n : Nat} (h : a.length = n) : xorL a (zeros n) = a := by
  subst h
  induction a with
  | nil => rfl
  | cons x a ih => simp [zeros_succ, ih]

theorem xorL_self (a : List Bool) : xorL a a = zeros a.length := by
  induction a with
  | nil => rfl
  | cons x a ih => simp [zeros_succ, ih]

theorem xorL_eq_zeros {a b : List Bool} {n : Nat} (h : a.length = b.length) (h0 : xorL a b = zeros n) : a = b := by
  have hl := congrArg List.length h0
  simp [← h] at hl
  have := congrArg (fun t => xorL t b) h0
  simp only [xorL_assoc, xorL_self] at this
  rw [← h, xorL_zeros rfl, xorL_comm, xorL_zeros (by omega)] at this
  exact this

/-- One step of the shift register with generator `g`. -/
def lstep (g : List Bool) : List Bool → Bool → List Bool
  | [], _ => []
  | t :: r, b => if t ^^ b then xorL (r ++ [false]) g else r ++ [false]

/-- The shift register fed with a list of bits. -/
def feed (g r m : List Bool) : List Bool := m.foldl (lstep g) r

@[simp] theorem feed_nil (g r : List Bool) : feed g r [] = r := rfl
@[simp] theorem feed_cons (g r m : List Bool) (b : Bool) : feed g r (b :: m) = feed g (lstep g r b) m := rfl
theorem feed_append (g r a b : List Bool) : feed g r (a ++ b) = feed g (feed g r a) b := by
  simp [feed]

theorem lstep_length {g r : List Bool} (h : r.length = g.length) (b : Bool) : (lstep g r b).length = g.length := by
  cases r with
  | nil => simpa [lstep] using h
  | cons t r => simp only [lstep]; split <;> simp at * <;> omega

theorem feed_length {g r : List Bool} (h : r.length = g.length) (m : List Bool) :
    (feed g r m).length = g.length := by
  induction m generalizing r with
  | nil => exact h
  | cons b m ih => exact ih (lstep_length h b)

theorem lstep_xor {g r s : List Bool} (hr : r.length = g.length) (hs : s.length = g.length) (a b : Bool) :
    lstep g (xorL r s) (a ^^ b) = xorL (lstep g r a) (lstep g s b) := by
  cases r with
  | nil => cases s <;> simp [lstep]
  | cons t r =>
    cases s with
    | nil => simp at hr hs; omega
    | cons u s =>
      simp at hr hs
      have e : xorL r s ++ [false] = xorL (r ++ [false]) (s ++ [false]) := by
        rw [xorL_append (by omega)]; rfl
      have hz : ∀ x : List Bool, x.length = g.length → xorL x (xorL g g) = x := fun x hx => by
        rw [xorL_self, xorL_zeros hx]
      simp only [lstep, xorL_cons, e]
      generalize hR : r ++ [false] = R
      generalize hS : s ++ [false] = S
      have hRl : R.length = g.length := by subst hR; simp; omega
      have hSl : S.length = g.length := by subst hS; simp; omega
      cases t <;> cases u <;> cases a <;> cases b <;> simp
      all_goals first
        | rw [xorL_comm g S, ← xorL_assoc]
        | rw [xorL_assoc R g, xorL_comm g (xorL S g), xorL_assoc S g g, hz S hSl]
        | (rw [xorL_assoc, xorL_assoc, xorL_comm g S])
        | (rw [xorL_assoc])

theorem feed_xor {g r s m n : List Bool} (hr : r.length = g.length) (hs : s.length = g.length)
    (h : m.length = n.length) : feed g (xorL r s) (xorL m n) = xorL (feed g r m) (feed g s n) := by
  induction m generalizing r s n with
  | nil => cases n <;> simp_all
  | cons a m ih =>
    cases n with
    | nil => simp at h
    | cons b n =>
      simp only [xorL_cons, feed_cons, lstep_xor hr hs]
      exact ih (lstep_length hr a) (lstep_length hs b) (by simpa using h)

/-- Feeding the register its own leading bits shifts them out. -/
theorem feed_own (g m d : List Bool) : feed g (m ++ d) m = d ++ zeros m.length := by
  induction m generalizing d with
  | nil => simp [zeros]
  | cons b m ih =>
    simp only [List.cons_append, feed_cons, lstep]
    simp [ih, zeros_succ, List.append_assoc]

/-- The table step: the bits shifted out choose what is added to the rest. -/
theorem feed_split {g r m : List Bool} (hr : r.length = g.length) (hm : m.length ≤ g.length) :
    feed g r m =
      xorL (feed g (xorL (r.take m.length) m ++ zeros (g.length - m.length)) (zeros m.length))
        (r.drop m.length ++ zeros m.length) := by
  have hz : (r.take m.length).length = m.length := by simp; omega
  rw [← feed_own g m (r.drop m.length), ← feed_xor (by simp; omega) (by simp; omega) (by simp)]
  rw [xorL_append (by simp; omega), xorL_assoc, xorL_self, xorL_zeros hz,
    xorL_comm (zeros (g.length - m.length)), xorL_zeros (by simp; omega), List.take_append_drop,
    xorL_comm, xorL_zeros rfl]

theorem lstep_inj {g r s : List Bool} (hg : g.getLast? = some true) (hr : r.length = g.length)
    (hs : s.length = g.length) {b : Bool} (h : lstep g r b = lstep g s b) : r = s := by
  have hx := lstep_xor hr hs b b
  rw [h, xorL_self, lstep_length hs] at hx
  simp only [Bool.xor_self] at hx
  obtain ⟨g', rfl⟩ : ∃ g', g = g' ++ [true] := by
    have := List.getLast?_eq_some_iff.mp hg
    simpa using this
  refine xorL_eq_zeros (n := g'.length + 1) (by omega) ?_
  generalize hX : xorL r s = x at hx
  have hxl : x.length = g'.length + 1 := by subst hX; simp at *; omega
  cases x with
  | nil => simp at hxl
  | cons t x =>
    simp at hxl
    simp only [lstep, Bool.xor_false, List.length_append, List.length_singleton, zeros_succ'] at hx
    cases t with
    | true =>
      simp only [if_true] at hx
      rw [xorL_append (by omega)] at hx
      have := (List.append_inj hx (by simp; omega)).2
      simp at this
    | false =>
      simp only [Bool.false_eq_true, if_false] at hx
      have := (List.append_inj hx (by simp; omega)).1
      simp [zeros_succ, this]

theorem feed_inj {g r s : List Bool} (hg : g.getLast? = some true) (hr : r.length = g.length)
    (hs : s.length = g.length) {m : List Bool} (h : feed g r m = feed g s m) : r = s := by
  induction m generalizing r s with
  | nil => exact h
  | cons b m ih =>
    exact lstep_inj hg hr hs (ih (lstep_length hr b) (lstep_length hs b) h)

/-- A register fed with two different bit strings no longer than itself ends in different states. -/
theorem feed_burst {g r u v : List Bool} (hg : g.getLast? = some true) (hr : r.length = g.length)
    (hl : u.length = v.length) (hu : u.length ≤ g.length) (h : feed g r u = feed g r v) : u = v := by
  rw [feed_split hr hu, feed_split hr (hl ▸ hu), ← hl] at h
  have hlen : ∀ m : List Bool, m.length = u.length →
      (xorL (r.take u.length) m ++ zeros (g.length - u.length)).length = g.length := by
    intro m hm; simp; omega
  have h2 := congrArg (fun t => xorL t (r.drop u.length ++ zeros u.length)) h
  have hd : (r.drop u.length ++ zeros u.length).length = g.length := by simp; omega
  simp only [xorL_assoc, xorL_self] at h2
  rw [xorL_zeros (by rw [feed_length (hlen u rfl), hd]), xorL_zeros (by rw [feed_length (hlen v hl.symm), hd])] at h2
  have h3 := feed_inj hg (hlen u rfl) (hlen v hl.symm) h2
  have h4 := (List.append_inj h3 (by simp; omega)).1
  have h5 := congrArg (xorL (r.take u.length)) h4
  simp only [← xorL_assoc, xorL_self] at h5
  have ht : (r.take u.length).length = u.length := by simp; omega
  rwa [ht, xorL_comm, xorL_zeros rfl, xorL_comm, xorL_zeros hl.symm] at h5

/-! ## The register computes the remainder -/

theorem two_zero : (2 : (ZMod 2)[X]) = 0 := CharTwo.two_eq_zero

theorem poly_append (a b : List Bool) : poly (a ++ b) = poly a * X ^ b.length + poly b := by
  induction a with
  | nil => simp [poly]
  | cons x a ih =>
    simp only [List.cons_append, poly, ih, List.length_append]
    split <;> ring

theorem poly_xor {a b : List Bool} (h : a.length = b.length) : poly (xorL a b) = poly a + poly b := by
  induction a generalizing b with
  | nil => cases b <;> simp_all [poly]
  | cons x a ih =>
    cases b with
    | nil => simp at h
    | cons y b =>
      have hl : a.length = b.length := by simpa using h
      simp only [xorL_cons, poly, ih hl, xorL_length, hl, Nat.min_self]
      cases x <;> cases y <;> simp
      · ring
      · ring
      · linear_combination (-X ^ b.length : (ZMod 2)[X]) * two_zero

theorem poly_lstep {g r : List Bool} (hr : r.length = g.length) (hg : g ≠ []) (b : Bool) :
    ∃ q, poly (lstep g r b) = X * poly r + (if b then X ^ g.length else 0) + q * (X ^ g.length + poly g) := by
  cases r with
  | nil => simp at hr; exact absurd (List.eq_nil_of_length_eq_zero hr.symm) hg
  | cons t r =>
    have hl : r.length + 1 = g.length := by simpa using hr
    have hp : poly (r ++ [false]) = X * poly r := by rw [poly_append]; simp [poly]; ring
    simp only [lstep]
    cases t <;> cases b <;> simp [hp, poly, poly_xor, ← hl]
    · refine ⟨1, ?_⟩
      linear_combination (-X ^ (r.length + 1) : (ZMod 2)[X]) * two_zero
    · refine ⟨1, ?_⟩
      linear_combination (-X ^ (r.length + 1) : (ZMod 2)[X]) * two_zero
    · refine ⟨0, ?_⟩
      linear_combination (-X ^ (r.length + 1) : (ZMod 2)[X]) * two_zero

theorem feed_isCrc {g r : List Bool} (hr : r.length = g.length) (hg : g ≠ []) (m : List Bool) :
    IsCrc g r m (feed g r m) := by
  refine ⟨feed_length hr m, ?_⟩
  induction m generalizing r with
  | nil => simp [poly]
  | cons b m ih =>
    obtain ⟨q, hq⟩ := poly_lstep hr hg b
    obtain ⟨c, hc⟩ := ih (lstep_length hr b)
    simp only [feed_cons, List.length_cons, poly]
    refine ⟨c + q * X ^ m.length, ?_⟩
    rw [hq] at hc
    cases b
    · simp at hc ⊢; linear_combination hc
    · simp at hc ⊢; linear_combination hc

/-! ## Remainders are unique -/

theorem poly_degree (a : List Bool) : (poly a).degree < a.length := by
  induction a with
  | nil => simp [poly]
  | cons x a ih =>
    simp only [poly, List.length_cons]
    refine lt_of_le_of_lt (degree_add_le _ _) (max_lt ?_ ?_)
    · split
      · refine lt_of_le_of_lt (degree_X_pow_le _) ?_
        exact_mod_cast Nat.lt_succ_self _
      · simp
    · refine lt_trans ih ?_
      exact_mod_cast Nat.lt_succ_self _

theorem poly_eq_zero {a : List Bool} (h : poly a = 0) : a = zeros a.length := by
  induction a with
  | nil => rfl
  | cons x a ih =>
    simp only [poly] at h
    cases x with
    | false =>
      simp at h
      rw [List.length_cons, zeros_succ, ← ih h]
    | true =>
      exfalso
      have hd := poly_degree a
      have := congrArg (fun p => p.coeff a.length) h
      simp [coeff_eq_zero_of_degree_lt hd] at this

theorem poly_inj {a b : List Bool} (h : a.length = b.length) (he : poly a = poly b) : a = b := by
  have h0 : poly (xorL a b) = 0 := by
    rw [poly_xor h, he]; linear_combination (poly b) * two_zero
  exact xorL_eq_zeros h (poly_eq_zero h0)

theorem Spec.IsCrc.unique {g start m a b : List Bool} (ha : IsCrc g start m a) (hb : IsCrc g start m b) : a = b := by
  refine poly_inj (ha.1.trans hb.1.symm) ?_
  have hd := dvd_sub ha.2 hb.2
  have e : poly a - (poly start * X ^ m.length + poly m * X ^ g.length) -
      (poly b - (poly start * X ^ m.length + poly m * X ^ g.length)) = poly a - poly b := by ring
  rw [e] at hd
  have hz : poly a - poly b = 0 := by
    refine eq_zero_of_dvd_of_degree_lt hd ?_
    have h1 : (X ^ g.length + poly g : (ZMod 2)[X]).degree = g.length := by
      rw [degree_add_eq_left_of_degree_lt] <;> rw [degree_X_pow]
      exact poly_degree g
    rw [h1]
    refine lt_of_le_of_lt (degree_sub_le _ _) (max_lt ?_ ?_)
    · have := poly_degree a; rwa [ha.1] at this
    · have := poly_degree b; rwa [hb.1] at this
  exact sub_eq_zero.mp hz

end Verif.Crc
