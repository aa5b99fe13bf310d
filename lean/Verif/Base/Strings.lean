import Verif.Base.Bytes

/-!
# `std::string` searching

Models of the library functions the code calls, with their characterisations.
-/
namespace Verif

/-- `std::string::find(pat)`: first position at which `pat` occurs, `none` for `npos`. -/
def findSub (pat : Bytes) : Bytes → Option Nat
  | [] => if pat = [] then some 0 else none
  | c :: r => if pat.isPrefixOf (c :: r) then some 0 else (findSub pat r).map (· + 1)

/-- `std::string::find(char)`. -/
def findChar (c : UInt8) : Bytes → Option Nat
  | [] => none
  | x :: r => if x = c then some 0 else (findChar c r).map (· + 1)

theorem findChar_none {c : UInt8} {s : Bytes} : findChar c s = none ↔ c ∉ s := by
  induction s with
  | nil => simp [findChar]
  | cons x r ih =>
    simp only [findChar]
    split
    next h => simp [h]
    next h => simp only [Option.map_eq_none_iff, ih, List.mem_cons, not_or]; grind

theorem findChar_append {c : UInt8} {a r : Bytes} (h : c ∉ a) :
    findChar c (a ++ c :: r) = some a.length := by
  induction a with
  | nil => simp [findChar]
  | cons x a ih =>
    simp only [List.mem_cons, not_or] at h
    simp only [List.cons_append, findChar, if_neg (Ne.symm h.1), ih h.2]; simp

theorem findChar_some {c : UInt8} {s : Bytes} {n : Nat} :
    findChar c s = some n ↔ ∃ a r, s = a ++ c :: r ∧ c ∉ a ∧ a.length = n := by
  constructor
  · intro h
    induction s generalizing n with
    | nil => simp [findChar] at h
    | cons x r ih =>
      simp only [findChar] at h
      split at h
      next hx => exact ⟨[], r, by simp [hx], by simp, by simpa using h⟩
      next hx =>
        rw [Option.map_eq_some_iff] at h
        obtain ⟨m, hm, rfl⟩ := h
        obtain ⟨a, r', rfl, hc, rfl⟩ := ih hm
        exact ⟨x :: a, r', rfl, by simp [hc, Ne.symm hx], rfl⟩
  · rintro ⟨a, r, rfl, hc, rfl⟩
    exact findChar_append hc

theorem findSub_single (c : UInt8) (s : Bytes) : findSub [c] s = findChar c s := by
  induction s with
  | nil => rfl
  | cons x r ih =>
    simp only [findSub, findChar, ih, List.isPrefixOf, Bool.and_true, beq_iff_eq]
    by_cases h : x = c
    · simp [h]
    · simp [h, Ne.symm h]

theorem findSub_some {pat s : Bytes} {n : Nat} (h : findSub pat s = some n) :
    n + pat.length ≤ s.length ∧ pat <+: s.drop n ∧ ∀ m < n, ¬ pat <+: s.drop m := by
  induction s generalizing n with
  | nil =>
    simp only [findSub] at h
    split at h
    next hp => simp at h; subst h; simp [hp]
    next => cases h
  | cons c r ih =>
    simp only [findSub] at h
    split at h
    next hp =>
      simp at h; subst h
      rw [List.isPrefixOf_iff_prefix] at hp
      refine ⟨by simpa using hp.length_le, by simpa using hp, by simp⟩
    next hp =>
      rw [Option.map_eq_some_iff] at h
      obtain ⟨m, hm, rfl⟩ := h
      obtain ⟨h1, h2, h3⟩ := ih hm
      refine ⟨by simp; omega, by simpa using h2, ?_⟩
      intro k hk
      cases k with
      | zero => simpa [List.isPrefixOf_iff_prefix] using hp
      | succ k => simpa using h3 k (by omega)

theorem findSub_none {pat s : Bytes} (h : findSub pat s = none) : ∀ m, m ≤ s.length → ¬ pat <+: s.drop m := by
  induction s with
  | nil =>
    simp only [findSub] at h
    split at h
    next => cases h
    next hp => intro m _; simpa using hp
  | cons c r ih =>
    simp only [findSub] at h
    split at h
    next => cases h
    next hp =>
      rw [Option.map_eq_none_iff] at h
      intro k hk
      cases k with
      | zero => simpa [List.isPrefixOf_iff_prefix] using hp
      | succ k => simpa using ih h k (by simpa using hk)

end Verif
