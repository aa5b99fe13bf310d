import Verif.Psi.Parse

namespace Verif.Psi
open Verif

theorem get_right (P l : Bytes) (k : Nat) : (P ++ l)[P.length + k]? = l[k]? := by
  rw [List.getElem?_append_right (by omega), Nat.add_sub_cancel_left]

theorem bits_right (P l : Bytes) (k i m : Nat) (h : i = P.length + k) : bits (P ++ l) i m = bits l k m := by
  subst h
  unfold bits
  rw [get_right, Nat.add_assoc, get_right]

theorem streams_len {n : Nat} {S : Bytes} {es : List Es} (h : streams n S = some es) : 5 * es.length ≤ S.length := by
  induction n generalizing S es with
  | zero =>
    rw [streams] at h
    split at h
    · cases h; simp
    · cases h
  | succ n ih =>
    rw [streams.eq_def] at h
    split at h
    · rename_i h1; cases h1
    · rename_i h1
      cases h1
      split at h
      · cases h; simp
      · split at h
        · cases h
        · rename_i r hr
          obtain ⟨l, h2, rfl⟩ := Option.map_eq_some_iff.1 h
          have := ih h2
          rw [List.length_drop] at this
          simp only [List.length_cons]; omega
      · cases h

theorem read_loop {m : Nat} {S : Bytes} {es : List Es} (h : streams m S = some es) (P Q : Bytes) (n : Nat) (hn : es.length ≤ n) (i stop : Nat) (hi : i = P.length) (hs : stop = P.length + S.length) :
    readLoop n (P ++ (S ++ Q)) i stop = some es := by
  induction m generalizing S es P n i with
  | zero =>
    rw [streams] at h
    split at h
    · rename_i hS
      cases h
      cases n with
      | zero => rfl
      | succ n => rw [readLoop, if_neg (by rw [hS] at hs; simp at hs; omega)]
    · cases h
  | succ m ih =>
    rw [streams.eq_def] at h
    split at h
    · rename_i h1; cases h1
    · rename_i h1
      cases h1
      split at h
      · cases h
        cases n with
        | zero => rfl
        | succ n => rw [readLoop, if_neg (by simp at hs; omega)]
      · rename_i y p q l k r
        split at h
        · cases h
        · rename_i hr
          obtain ⟨es', h2, rfl⟩ := Option.map_eq_some_iff.1 h
          obtain ⟨n, rfl⟩ : ∃ a, n = a + 1 := ⟨n - 1, by simp at hn; omega⟩
          subst hi
          rw [readLoop, if_pos (by simp at hs; omega)]
          have g0 : (P ++ (y :: p :: q :: l :: k :: r ++ Q))[P.length]? = some y := by
            have := get_right P (y :: p :: q :: l :: k :: r ++ Q) 0
            rw [Nat.add_zero] at this
            rw [this]; rfl
          have g1 : bits (P ++ (y :: p :: q :: l :: k :: r ++ Q)) (P.length + 1) 8192 = some (be2 p q % 8192) := by
            rw [bits_right P _ 1 _ _ rfl]; rfl
          have g2 : bits (P ++ (y :: p :: q :: l :: k :: r ++ Q)) (P.length + 3) 4096 = some (be2 l k % 4096) := by
            rw [bits_right P _ 3 _ _ rfl]; rfl
          generalize hN : be2 l k % 4096 = N at *
          rw [g0, g1, g2]
          simp only [Option.bind_eq_bind, Option.bind_some]
          rw [if_neg (by simp only [List.length_append, List.length_cons]; omega)]
          obtain ⟨a, c, rfl, ha⟩ := cut (r := r) (n := N) (by omega)
          have hd : (a ++ c).drop N = c := by rw [← ha]; simp
          have ht : (a ++ c).take N = a := by rw [← ha]; simp
          rw [hd] at h2
          have e : P ++ (y :: p :: q :: l :: k :: (a ++ c) ++ Q) = (P ++ ([y, p, q, l, k] ++ a)) ++ (c ++ Q) := by simp
          have e2 : P ++ (y :: p :: q :: l :: k :: (a ++ c) ++ Q) = (P ++ [y, p, q, l, k]) ++ (a ++ (c ++ Q)) := by simp
          have hp : (P ++ (y :: p :: q :: l :: k :: (a ++ c) ++ Q)).drop (P.length + 5) = a ++ (c ++ Q) := by
            rw [e2]; exact List.drop_left' (by simp)
          rw [hp, List.take_left' ha, ht, e, ih h2 (P ++ ([y, p, q, l, k] ++ a)) n (by simp at hn; omega) _ (by simp [ha]; omega) (by simp at hs ⊢; omega)]
          rfl
      · cases h

theorem read_pmt {p s : Bytes} {pid cc : Nat} {m : Pmt} {b c r : Bytes} (hp : section? p = some (pid, cc, s)) (hm : pmt? s = some (m, b, c, r)) : readEntries p = some m.list := by
  unfold section? at hp
  split at hp
  · rename_i s0 a0 b0 c0 ptr rest
    split at hp
    · rename_i hc
      obtain ⟨hl, h0, h1, h3, h4⟩ := hc
      cases hp
      unfold pmt? at hm
      split at hm
      · rename_i l0 l1 n0 n1 v p0 p1 i0 i1 q hq
        split at hm
        · rename_i hcc
          obtain ⟨k1, k2, k3, k4, k5, k6⟩ := hcc
          obtain ⟨es, hs, he⟩ := Option.map_eq_some_iff.1 hm
          cases he
          simp only
          have hpay : payloadAt (s0 :: a0 :: b0 :: c0 :: ptr :: rest) = 4 := by
            unfold payloadAt
            have : at' (s0 :: a0 :: b0 :: c0 :: ptr :: rest) 3 = c0 := rfl
            rw [this, h3]; rfl
          have hbase : baseOf (s0 :: a0 :: b0 :: c0 :: ptr :: rest) = some (4 + ptr.toNat) := by
            unfold baseOf
            rw [hpay]; rfl
          generalize hL : be2 l0 l1 % 4096 = L at *
          generalize hI : be2 i0 i1 % 4096 = I at *
          obtain ⟨P, hP, hPl⟩ : ∃ P : Bytes, s0 :: a0 :: b0 :: c0 :: ptr :: rest = P ++ (2 :: l0 :: l1 :: n0 :: n1 :: v :: 0 :: 0 :: p0 :: p1 :: i0 :: i1 :: q) ∧ P.length = 5 + ptr.toNat := by
            refine ⟨s0 :: a0 :: b0 :: c0 :: ptr :: rest.take ptr.toNat, ?_, ?_⟩
            · rw [← hq]
              simp
            · simp only [List.length_cons, List.length_take]; omega
          have hql : q.length + 12 = 183 - ptr.toNat := by
            have := congrArg List.length hq
            simp only [List.length_drop, List.length_cons] at this
            simp only [List.length_cons] at hl
            omega
          unfold readEntries
          rw [hbase]
          simp only [Option.bind_eq_bind, Option.bind_some]
          rw [hP, bits_right P _ 10 _ _ (by omega), bits_right P _ 1 _ _ (by omega)]
          have g1 : bits (2 :: l0 :: l1 :: n0 :: n1 :: v :: 0 :: 0 :: p0 :: p1 :: i0 :: i1 :: q) 10 4096 = some I := by rw [← hI]; rfl
          have g2 : bits (2 :: l0 :: l1 :: n0 :: n1 :: v :: 0 :: 0 :: p0 :: p1 :: i0 :: i1 :: q) 1 4096 = some L := by rw [← hL]; rfl
          rw [g1, g2]
          simp only [Option.bind_some]
          rw [hq] at k5
          simp only [List.length_cons] at k5
          have e : P ++ (2 :: l0 :: l1 :: n0 :: n1 :: v :: 0 :: 0 :: p0 :: p1 :: i0 :: i1 :: q) =
              (P ++ ([2, l0, l1, n0, n1, v, 0, 0, p0, p1, i0, i1] ++ (q.take (L - 13)).take I)) ++ ((q.take (L - 13)).drop I ++ q.drop (L - 13)) := by
            have a1 : (q.take (L - 13)).take I ++ ((q.take (L - 13)).drop I ++ q.drop (L - 13)) = q := by
              rw [← List.append_assoc, List.take_append_drop, List.take_append_drop]
            simp only [List.append_assoc, a1]
            rfl
          have ln := streams_len hs
          have l1' : ((q.take (L - 13)).take I).length = I := by simp only [List.length_take]; omega
          have l2' : ((q.take (L - 13)).drop I).length = L - 13 - I := by simp only [List.length_take, List.length_drop]; omega
          rw [e]
          refine read_loop hs _ _ 189 (by omega) _ _ ?_ ?_
          · simp only [List.length_append, l1', hPl, List.length_cons, List.length_nil]; omega
          · simp only [List.length_append, l1', l2', hPl, List.length_cons, List.length_nil]; omega
        · cases hm
      · cases hm
    · cases hp
  · cases hp

theorem tag_eq {n m : Nat} {info : Bytes} {ds : List (UInt8 × Bytes)} (tag : UInt8) (h : descriptors n info = some ds) (hm : info.length ≤ m) :
    getTag m tag info = ((ds.find? (·.1 = tag)).map (·.2)).getD [] := by
  induction n generalizing info ds m with
  | zero =>
    rw [descriptors] at h
    split at h
    · rename_i hi
      cases h
      subst hi
      cases m <;> rfl
    · cases h
  | succ n ih =>
    rw [descriptors.eq_def] at h
    split at h
    · rename_i h1; cases h1
    · cases h
      cases m <;> rfl
    · cases h
    · rename_i n' t len b h1
      cases h1
      split at h
      · cases h
      · rename_i hl
        obtain ⟨l, h2, rfl⟩ := Option.map_eq_some_iff.1 h
        obtain ⟨m, rfl⟩ : ∃ a, m = a + 1 := ⟨m - 1, by simp at hm; omega⟩
        rw [getTag, List.find?_cons]
        by_cases ht : t = tag
        · simp [ht]
        · have := ih (m := m) h2 (by simp at hm; rw [List.length_drop]; omega)
          simp [ht, this]

end Verif.Psi
