import Verif.H264Out.Props
import Verif.H264In.Props

/-!
# C117: what is sent can be read again
-/

namespace Verif.H264Out
open Verif

/-- A unit as encoders make them: no start code inside, and not ending with zero. -/
def Spec.Clean (u : Bytes) : Prop := (∀ k, (u.drop k).take 3 ≠ [0, 0, 1]) ∧ u ≠ [] ∧ u.getLast? ≠ some 0

theorem trim_clean : ∀ u : Bytes, u ≠ [] → u.getLast? ≠ some 0 → H264In.Spec.trim (u ++ [0]) = u ∧ H264In.Spec.trim (u ++ [0]) ≠ []
  | [], h, _ => absurd rfl h
  | [c], _, h => by
    have hc : c ≠ 0 := fun e => h (by rw [e]; rfl)
    simp [H264In.Spec.trim, hc]
  | c :: d :: t, _, h => by
    have ih := trim_clean (d :: t) (by simp) (by rw [List.getLast?_cons_cons] at h; exact h)
    rw [List.cons_append, H264In.Spec.trim, if_neg (fun x => ih.2 x.2), ih.1]
    exact ⟨rfl, by simp⟩

/-- No start code crosses the end of a unit. -/
theorem cross_clean {u : Bytes} (h : ∀ k, (u.drop k).take 3 ≠ [0, 0, 1]) : ∀ k < (u ++ [0]).length, (((u ++ [0]) ++ H264In.Spec.code).drop k).take 3 ≠ H264In.Spec.code := by
  intro k hk c
  rw [List.length_append] at hk
  have hk : k < u.length + 1 := hk
  -- the third byte
  have h3 : ((u ++ [0]) ++ H264In.Spec.code)[k + 2]? = some 1 := by
    have : (((u ++ [0]) ++ H264In.Spec.code).drop k |>.take 3)[2]? = some 1 := by rw [c]; rfl
    rw [List.getElem?_take_of_lt (by decide), List.getElem?_drop] at this
    exact this
  rcases Nat.lt_or_ge (k + 2) u.length with a | a
  · apply h k
    rw [List.append_assoc, List.drop_append_of_le_length (by omega), List.take_append_of_le_length (by rw [List.length_drop]; omega)] at c
    exact c
  · rw [List.append_assoc, List.getElem?_append_right a] at h3
    have : k + 2 - u.length = 0 ∨ k + 2 - u.length = 1 ∨ k + 2 - u.length = 2 := by omega
    rcases this with e | e | e <;> rw [e] at h3 <;> simp [H264In.Spec.code] at h3

/-- The reads: the first start code, then unit by unit with the start code behind it. -/
def reads (us : List Bytes) : List (H264In.Spec.Read × Nat) :=
  ({ ends := [[0]], rest := [] }, 0) :: us.map fun u => ({ ends := [u ++ [0]], rest := [] }, 0)

theorem units_reads (us : List Bytes) : H264In.Spec.units [] ((us.map fun u => (({ ends := [u ++ [0]], rest := [] } : H264In.Spec.Read), 0)).map (·.1)) = us.map (· ++ [0]) := by
  induction us with
  | nil => rfl
  | cons u t ih =>
    simp only [List.map_cons, H264In.Spec.units]
    rw [ih]
    rfl

/-- C117, there and back: the byte stream of units as encoders make them, with a start code behind the last one, read unit by unit by the input for raw H.264, gives packets with
just these units, parameter sets left out. -/
theorem C117_reread_partial (e : H264In.Env) (us : List Bytes) (hc : ∀ u ∈ us, Spec.Clean u) (hl : ∀ u ∈ us, u.length ≤ 4092)
    (hsum : (Spec.stream us).length + 4 < 2 ^ 32) :
    (([0, 0, 0, 1] :: us.map fun u => u ++ [0, 0, 0, 1]).flatten = Spec.stream us ++ [0, 0, 0, 1])
    ∧ (H264In.run e H264In.boot (([0, 0, 0, 1], 0) :: us.map fun u => (u ++ [0, 0, 0, 1], 0))).map (·.nal) = H264In.Spec.media false false us := by
  have hcat : ∀ vs : List Bytes, [0, 0, 0, 1] ++ (vs.map fun u => u ++ [0, 0, 0, 1]).flatten = Spec.stream vs ++ [0, 0, 0, 1] := by
    intro vs
    induction vs with
    | nil => rfl
    | cons u t ih =>
      simp only [Spec.stream, List.flatMap_cons, List.map_cons, List.flatten_cons, List.append_assoc] at ih ⊢
      rw [ih]
  refine ⟨hcat us, ?_⟩
  have hbytes : (reads us).map (fun ev => (ev.1.bytes, ev.2)) = ([0, 0, 0, 1], 0) :: us.map fun u => (u ++ [0, 0, 0, 1], 0) := by
    simp only [reads, List.map_cons, List.map_map]
    congr 1
    apply List.map_congr_left
    intro u _
    simp [H264In.Spec.Read.bytes, H264In.Spec.code]
  have hrest : ∀ k, (([] : Bytes).drop k).take 3 ≠ H264In.Spec.code := by intro k; simp [H264In.Spec.code]
  have hlen : ∀ vs : List Bytes, ((reads vs).map fun ev => ev.1.bytes.length).sum = (Spec.stream vs).length + 4 := by
    intro vs
    have : ∀ ws : List Bytes, ((ws.map fun u => (({ ends := [u ++ [0]], rest := [] } : H264In.Spec.Read), 0)).map fun ev => ev.1.bytes.length).sum = (Spec.stream ws).length := by
      intro ws
      induction ws with
      | nil => rfl
      | cons u t ih =>
        simp only [List.map_cons, List.sum_cons, Spec.stream, List.flatMap_cons, List.length_append] at ih ⊢
        rw [ih]
        simp [H264In.Spec.Read.bytes, H264In.Spec.code]
        omega
    simp only [reads, List.map_cons, List.sum_cons]
    have := this vs
    rw [this, Nat.add_comm]
    rfl
  have h := H264In.C116_all_partial e (reads us) (by
    intro ev hv
    rcases List.mem_cons.1 hv with rfl | hv
    · exact ⟨by decide +kernel, hrest, by decide +kernel, by decide +kernel⟩
    · obtain ⟨u, hu, rfl⟩ := List.mem_map.1 hv
      refine ⟨?_, hrest, ?_, ?_⟩
      · intro x hx
        rw [List.mem_singleton.1 hx]
        exact cross_clean (hc u hu).1
      · simp [H264In.Spec.Read.bytes, H264In.Spec.code]
      · have := hl u hu
        simp [H264In.Spec.Read.bytes, H264In.Spec.code]
        omega) (by rw [hlen]; exact hsum) (by
    intro ev hv
    rcases List.mem_cons.1 hv with rfl | hv
    · exact Nat.le_refl 1
    · obtain ⟨u, hu, rfl⟩ := List.mem_map.1 hv
      exact Nat.le_refl 1)
  rw [hbytes] at h
  rw [h]
  have hu : H264In.Spec.units [] ((reads us).map (·.1)) = [0] :: us.map (· ++ [0]) := by
    have := units_reads us
    simp only [reads, List.map_cons, H264In.Spec.units]
    rw [this]
    rfl
  rw [hu, List.map_cons, List.map_map]
  have ht : us.map (H264In.Spec.trim ∘ (· ++ [0])) = us := by
    refine (List.map_congr_left (g := id) ?_).trans (List.map_id us)
    intro u hu
    exact (trim_clean u (hc u hu).2.1 (hc u hu).2.2).1
  rw [ht]
  rfl

/-- A case: both parameter sets and two frames. -/
example : (∀ u ∈ ([[0x67, 1], [0x68, 2], [0x65, 0, 0, 3, 1], [0x41, 7]] : List Bytes), u.length ≤ 4092 ∧ u ≠ [] ∧ u.getLast? ≠ some 0 ∧ ∀ k < u.length, (u.drop k).take 3 ≠ [0, 0, 1])
    ∧ H264In.Spec.media false false [[0x67, 1], [0x68, 2], [0x65, 0, 0, 3, 1], [0x41, 7]] = [[0x65, 0, 0, 3, 1], [0x41, 7]] := by
  decide +kernel

end Verif.H264Out
