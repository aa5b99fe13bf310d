import Verif.Base.Bytes

/-!
# Specification: times of messages

Lists of (track, time), oldest first. Written without the model.
-/
namespace Verif.Ingest.Spec

/-- The last time of a track. -/
def last (k : Nat) (h : List (Nat × Nat)) : Option Nat := ((h.filter fun p => p.1 = k).getLast?).map (·.2)

/-- A publisher whose clock has `M` values and that sends messages at these true times: a track starts before the clock rolls over, its times do not go
back and pause for at most ten minutes, or four seconds when the clock rolls over meanwhile; and no track is more than a tenth of a second behind another. -/
def Steady (M : Nat) (h : List (Nat × Nat)) : Prop :=
  ∀ a k t b, h = a ++ (k, t) :: b → (∀ p ∈ a, p.2 ≤ t + 100) ∧ (last k a = none → t < M) ∧
    ∀ u, last k a = some u → u ≤ t ∧ t ≤ u + 600000 ∧ (t / M ≠ u / M → t < u + 4096)

/-- The clock may have rolled over: the times differ by about 2^24 or 2^32. -/
def Near (d : Nat) : Prop := (2 ^ 24 - 4096 < d ∧ d < 2 ^ 24 + 4095) ∨ (2 ^ 32 - 4096 < d ∧ d < 2 ^ 32 + 4095)

end Verif.Ingest.Spec
