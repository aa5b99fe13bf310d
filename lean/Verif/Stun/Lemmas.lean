import Verif.Stun.Model
import Verif.Stun.Spec
import Verif.Bit.Props
import Verif.Crc.Props

/-!
# Lemmas for C74 to C76
-/
namespace Verif.Stun
open Verif.Bit Verif.Addr

theorem store_s (d : Bytes) (p v : Nat) : store .s d p v = poke d p (beEnc 2 v) := by
  unfold store; rw [htob_eq]; rfl

theorem store_l (d : Bytes) (p v : Nat) : store .l d p v = poke d p (beEnc 4 v) := by
  unfold store; rw [htob_eq]; rfl

theorem poke_next {p : Nat} {a g b : Bytes} (hp : p = a.length) (hb : b.length ≤ g.length) : poke (a ++ g) p b = some (a ++ b ++ g.drop b.length) := by
  subst hp
  unfold poke
  rw [if_pos (by simp; omega)]
  simp

theorem poke_mid {p : Nat} {a b b' c : Bytes} (hp : p = a.length) (hb : b'.length = b.length) : poke (a ++ b ++ c) p b' = some (a ++ b' ++ c) := by
  rw [List.append_assoc, poke_next hp (by simp; omega), hb]
  simp

theorem grow_eq (junk : Nat → UInt8) (d : Bytes) (n : Nat) : ∃ g, grow junk d n = d ++ g ∧ g.length = n :=
  ⟨_, rfl, by simp⟩

/-- A packet under construction: the length is not written yet. -/
def Made (type : Nat) (tid b d : Bytes) : Prop := ∃ L : Bytes, L.length = 2 ∧ d = beEnc 2 type ++ L ++ (Spec.cookie ++ tid ++ b)

theorem Made.length {type : Nat} {tid b d : Bytes} (h : Made type tid b d) (ht : tid.length = 12) : d.length = 20 + b.length := by
  obtain ⟨L, h1, rfl⟩ := h
  simp [h1, ht, Spec.cookie]; omega

theorem header_length (type n : Nat) {tid : Bytes} (ht : tid.length = 12) : (Spec.header type n tid).length = 20 := by
  simp [Spec.header, ht, Spec.cookie]

theorem made_header (type n : Nat) (tid b : Bytes) : Made type tid b (Spec.header type n tid ++ b) :=
  ⟨beEnc 2 n, by simp, by simp [Spec.header]⟩

/-- Making room and writing the length. -/
theorem begin {type n : Nat} {tid b d : Bytes} (h : Made type tid b d) (ht : tid.length = 12) (junk : Nat → UInt8) :
    ∃ g, g.length = n ∧ store .s (grow junk d n) 2 ((grow junk d n).length - 20) = some (Spec.header type (b.length + n) tid ++ b ++ g) := by
  obtain ⟨g, hg, hn⟩ := grow_eq junk d n
  have hl := h.length ht
  obtain ⟨L, h1, rfl⟩ := h
  refine ⟨g, hn, ?_⟩
  have hlen : (beEnc 2 type ++ L ++ (Spec.cookie ++ tid ++ b) ++ g).length - 20 = b.length + n := by
    rw [List.length_append, hl, hn]; omega
  rw [hg, hlen, store_s, List.append_assoc, poke_mid (by simp) (by simp [h1])]
  simp [Spec.header]

theorem attr_bytes (t : Nat) (v : Bytes) : (Spec.attr t v).bytes = beEnc 2 t ++ beEnc 2 v.length ++ v ++ List.replicate ((4 - v.length % 4) % 4) 0 := rfl

theorem body_snoc (l : List Spec.Attr) (a : Spec.Attr) : Spec.body (l ++ [a]) = Spec.body l ++ a.bytes := by simp [Spec.body]

theorem body_cons (l : List Spec.Attr) (a : Spec.Attr) : Spec.body (a :: l) = a.bytes ++ Spec.body l := by simp [Spec.body]

theorem zipWith_take (f : UInt8 → UInt8 → UInt8) : ∀ (a b c : Bytes), a.length ≤ b.length → a.zipWith f (b ++ c) = a.zipWith f b
  | [], _, _, _ => by simp
  | x :: a, [], _, h => absurd h (by simp)
  | x :: a, y :: b, c, h => by simp [zipWith_take f a b c (by simpa using h)]

end Verif.Stun
