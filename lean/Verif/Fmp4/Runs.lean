import Verif.Fmp4.Lemmas

/-!
# Reading runs
-/
namespace Verif.Fmp4
open Verif.Mp4 Verif.Stbl

theorem row_length (r : Run) (x : Row) : (r.row x).length = trunRowSize r.word := by
  obtain ⟨-, -, b3, b4, b5, b6, -⟩ := run_bits r.data.isSome r.first.isSome r.hasDur r.hasSize r.hasFlags r.hasOff
  have p3 : has r.word 0x100 = r.hasDur := b3
  have p4 : has r.word 0x200 = r.hasSize := b4
  have p5 : has r.word 0x400 = r.hasFlags := b5
  have p6 : has r.word 0x800 = r.hasOff := b6
  unfold Run.row trunRowSize
  rw [p3, p4, p5, p6]
  simp only [List.length_append, apply_ite List.length, beEnc_length, List.length_nil]

theorem rows_length (r : Run) (l : List Row) : (l.flatMap r.row).length = l.length * trunRowSize r.word := by
  induction l with
  | nil => simp
  | cons x l ih => rw [List.flatMap_cons, List.length_append, ih, row_length, List.length_cons, Nat.succ_mul]; omega

/-- The reader of the head of a run. -/
theorem run_reads (r : Run) (hf : r.Fits) (v : Nat) (rest : Bytes)  (hl : (r.bytes v).length < 2 ^ 30) :
    let b := box tyTrun (r.bytes v) ++ rest
    getFlags b = r.word ∧ trunCount b = r.rows.length ∧ (∀ x, r.data = some x → trunDataOffset b = x) ∧ (∀ x, r.first = some x → trunFirstFlags b = x) := by
  intro b
  have hn := hf.2.2.2
  obtain ⟨b1, b2, -, -, -, -, b7⟩ := run_bits r.data.isSome r.first.isSome r.hasDur r.hasSize r.hasFlags r.hasOff
  have p1 : has r.word 1 = r.data.isSome := b1
  have p2 : has r.word 4 = r.first.isSome := b2
  have hlen := hl
  unfold Run.bytes at hlen
  simp only [List.length_append, beEnc_length, opt_length] at hlen
  have hw : getFlags b = r.word := by
    have := flags_at tyTrun (beEnc 4 r.rows.length ++ opt 4 r.data ++ opt 4 r.first ++ r.rows.flatMap r.row) rest rfl v r.word b7 (by
      simp only [List.length_append, beEnc_length, opt_length]; omega)
    show getFlags (box tyTrun (r.bytes v) ++ rest) = r.word
    unfold Run.bytes
    simp only [List.append_assoc] at this ⊢
    exact this
  refine ⟨hw, ?_, fun x hx => ?_, fun x hx => ?_⟩
  · have := get_at tyTrun (beEnc 1 v ++ beEnc 3 r.word) (opt 4 r.data ++ opt 4 r.first ++ r.rows.flatMap r.row) rest rfl 4 r.rows.length 4 (by simp) (by decide)
      (by omega) (by simp only [List.length_append, beEnc_length, opt_length]; omega)
    show getInt (box tyTrun (r.bytes v) ++ rest) 4 4 = _
    unfold Run.bytes
    simp only [List.append_assoc] at this ⊢
    exact this
  · unfold trunDataOffset
    rw [hw, p1, hx, if_pos (by rfl)]
    have := get_at tyTrun (beEnc 1 v ++ beEnc 3 r.word ++ beEnc 4 r.rows.length) (opt 4 r.first ++ r.rows.flatMap r.row) rest rfl 4 x 8 (by simp) (by decide)
      (hf.1 x hx) (by simp only [List.length_append, beEnc_length, opt_length]; omega)
    show getInt (box tyTrun (r.bytes v) ++ rest) 4 8 = _
    unfold Run.bytes
    rw [hx]
    simp only [List.append_assoc] at this ⊢
    exact this
  · unfold trunFirstFlags
    rw [hw, p2, hx, if_pos (by rfl), p1]
    have := get_at tyTrun (beEnc 1 v ++ beEnc 3 r.word ++ beEnc 4 r.rows.length ++ opt 4 r.data) (r.rows.flatMap r.row) rest rfl 4 x (8 + if r.data.isSome then 4 else 0)
      (by simp only [List.length_append, beEnc_length, opt_length]) (by decide)
      (hf.2.1 x hx) (by simp only [List.length_append, beEnc_length, opt_length]; omega)
    have e : (if r.data.isSome = true then getInt b 4 12 else getInt b 4 8) = getInt b 4 (8 + if r.data.isSome = true then 4 else 0) := by
      split <;> rfl
    rw [e]
    show getInt (box tyTrun (r.bytes v) ++ rest) 4 _ = _
    unfold Run.bytes
    rw [hx]
    simp only [List.append_assoc] at this ⊢
    exact this

/-- Reading a field of a sample. -/
theorem row_field (r : Run) (v : Nat) (rest : Bytes) (hl : (r.bytes v).length < 2 ^ 30) (i : Nat) (x : Row) (hx : r.rows[i]? = some x) (a c : Bytes) (y : Nat)
    (hy : y < 2 ^ 32) (hrow : r.row x = a ++ beEnc 4 y ++ c) :
    getInt (box tyTrun (r.bytes v) ++ rest) 4 ((trunStart r.word + i * trunRowSize r.word + a.length) % 2 ^ 32) = y := by
  obtain ⟨b1, b2, -⟩ := run_bits r.data.isSome r.first.isSome r.hasDur r.hasSize r.hasFlags r.hasOff
  have p1 : has r.word 1 = r.data.isSome := b1
  have p2 : has r.word 4 = r.first.isSome := b2
  obtain ⟨hi, rfl⟩ := List.getElem?_eq_some_iff.mp hx
  have hsplit : r.rows.flatMap r.row = (r.rows.take i).flatMap r.row ++ (a ++ beEnc 4 y ++ c) ++ (r.rows.drop (i + 1)).flatMap r.row := by
    conv => lhs; rw [← List.take_append_drop i r.rows, List.drop_eq_getElem_cons hi]
    rw [List.flatMap_append, List.flatMap_cons, hrow]; simp only [List.append_assoc]
  have hpre := rows_length r (r.rows.take i)
  rw [List.length_take, Nat.min_eq_left (by omega)] at hpre
  have hst : trunStart r.word = 8 + (opt 4 r.data).length + (opt 4 r.first).length := by
    unfold trunStart; rw [p1, p2, opt_length, opt_length]
  have hlen := hl
  unfold Run.bytes at hlen ⊢
  rw [hsplit] at hlen ⊢
  simp only [List.length_append, beEnc_length] at hlen
  have hat : (trunStart r.word + i * trunRowSize r.word + a.length) % 2 ^ 32 =
      (beEnc 1 v ++ beEnc 3 r.word ++ beEnc 4 r.rows.length ++ opt 4 r.data ++ opt 4 r.first ++ (r.rows.take i).flatMap r.row ++ a).length := by
    simp only [List.length_append, beEnc_length]
    rw [hst, ← hpre, Nat.mod_eq_of_lt (by omega)]
  have := get_at tyTrun (beEnc 1 v ++ beEnc 3 r.word ++ beEnc 4 r.rows.length ++ opt 4 r.data ++ opt 4 r.first ++ (r.rows.take i).flatMap r.row ++ a)
    (c ++ (r.rows.drop (i + 1)).flatMap r.row) rest rfl 4 y _ hat (by decide) hy (by simp only [List.length_append, beEnc_length]; omega)
  simp only [List.append_assoc] at this ⊢
  exact this

/-- Samples that exist. -/
theorem trun_info (b : Bytes) (no n : Nat) (tfhd : Bytes) (trex : Option Trex) (hc : trunCount b = n) (hi : no < n) (hn : n < 2 ^ 31) :
    trunInfo b no tfhd trex =
      { dur := if has (getFlags b) 0x100 then getInt b 4 ((trunStart (getFlags b) + no * trunRowSize (getFlags b)) % 2 ^ 32)
          else if has (getFlags tfhd) 8 then tfhdDuration tfhd else (trex.map Trex.dur).getD 0
        size := if has (getFlags b) 0x200 then getInt b 4 ((trunStart (getFlags b) + no * trunRowSize (getFlags b) + if has (getFlags b) 0x100 then 4 else 0) % 2 ^ 32)
          else if has (getFlags tfhd) 0x10 then tfhdSize tfhd else (trex.map Trex.size).getD 0
        flags := if has (getFlags b) 0x400 then
            getInt b 4 ((trunStart (getFlags b) + no * trunRowSize (getFlags b) + (if has (getFlags b) 0x100 then 4 else 0) + if has (getFlags b) 0x200 then 4 else 0) % 2 ^ 32)
          else if has (getFlags b) 4 ∧ no = 0 then trunFirstFlags b else if has (getFlags tfhd) 0x20 then tfhdFlags tfhd else (trex.map Trex.flags).getD 0
        off := if has (getFlags b) 0x800 then
            getInt b 4 ((trunStart (getFlags b) + no * trunRowSize (getFlags b) + (if has (getFlags b) 0x100 then 4 else 0) + (if has (getFlags b) 0x200 then 4 else 0) +
              if has (getFlags b) 0x400 then 4 else 0) % 2 ^ 32)
          else 0 } := by
  have h1 : no % 2 ^ 32 = no := by omega
  have h2 : ¬ (trunCount b < (no + 1) % 2 ^ 32) := by rw [hc]; omega
  unfold trunInfo
  simp only [h1, h2, if_false]

theorem pick (c d : Bool) (g v x z : Nat) (o : Option Nat) (hg : c = true → g = x) (ho : d = o.isSome) (h : ∀ y, o = some y → v = y) :
    (if c = true then g else if d = true then v else z) = if c = true then x else o.getD z := by
  cases c with
  | true => exact hg rfl
  | false =>
    subst ho
    cases o with
    | none => rfl
    | some y => exact h y rfl

theorem pick_flags (c d e : Bool) (g v w x z i : Nat) (o q : Option Nat) (hg : c = true → g = x) (ho : d = o.isSome) (h : ∀ y, o = some y → v = y)
    (he : e = q.isSome) (hq : ∀ y, q = some y → w = y) :
    (if c = true then g else if e = true ∧ i = 0 then w else if d = true then v else z) =
      if c = true then x else match (generalizing := false) i, q with
        | 0, some f => f
        | _, _ => o.getD z := by
  cases c with
  | true => exact hg rfl
  | false =>
    subst ho he
    cases q with
    | none =>
      cases o with
      | none => cases i <;> rfl
      | some y => cases i <;> exact h y rfl
    | some f =>
      cases i with
      | zero => exact hq f rfl
      | succ i =>
        cases o with
        | none => rfl
        | some y => exact h y rfl

/-- The reader of a sample. -/
theorem run_info (t : Traf) (hh : t.head.Fits) (rh : Bytes) (hhl : t.head.bytes.length < 2 ^ 30) (trex : Option Trex) (r : Run) (hf : r.Fits) (v : Nat) (rest : Bytes)
    (hl : (r.bytes v).length < 2 ^ 30) (i : Nat) (x : Row) (hx : r.rows[i]? = some x) :
    trunInfo (box tyTrun (r.bytes v) ++ rest) i (box tyTfhd t.head.bytes ++ rh) trex = ⟨durOf t trex r x, sizeOf t trex r x, flagsOf t trex r i x, offOf r x⟩ := by
  obtain ⟨g1, g2, -, g4⟩ := run_reads r hf v rest hl
  obtain ⟨-, h2, h3, h4, -, h6, h7, h8⟩ := tfhd_reads t.head hh rh hhl
  obtain ⟨-, b2, b3, b4, b5, b6, -⟩ := run_bits r.data.isSome r.first.isSome r.hasDur r.hasSize r.hasFlags r.hasOff
  have p2 : has r.word 4 = r.first.isSome := b2
  have p3 : has r.word 0x100 = r.hasDur := b3
  have p4 : has r.word 0x200 = r.hasSize := b4
  have p5 : has r.word 0x400 = r.hasFlags := b5
  have p6 : has r.word 0x800 = r.hasOff := b6
  have hi := (List.getElem?_eq_some_iff.mp hx).1
  have hxf := hf.2.2.1 x (List.mem_of_getElem? hx)
  have key := row_field r v rest hl i x hx
  have len : ∀ (c : Bool) (v : Nat), (if c = true then beEnc 4 v else []).length = if c = true then 4 else 0 := by
    intro c v; cases c <;> simp [beEnc_length]
  rw [trun_info _ i _ _ trex g2 hi hf.2.2.2, g1, h2, h3, h4, p2, p3, p4, p5, p6, Sample.mk.injEq]
  unfold durOf sizeOf flagsOf offOf
  refine ⟨pick _ _ _ _ _ _ _ (fun hc => ?_) rfl h6, pick _ _ _ _ _ _ _ (fun hc => ?_) rfl h7, pick_flags _ _ _ _ _ _ _ _ _ _ _ (fun hc => ?_) rfl h8 rfl g4, ?_⟩
  · have := key [] ((if r.hasSize then beEnc 4 x.size else []) ++ (if r.hasFlags then beEnc 4 x.flags else []) ++ (if r.hasOff then beEnc 4 x.off else [])) x.dur hxf.1
      (by unfold Run.row; rw [hc]; simp only [if_pos, List.append_assoc, List.nil_append])
    rw [List.length_nil, Nat.add_zero] at this
    exact this
  · have := key (if r.hasDur then beEnc 4 x.dur else []) ((if r.hasFlags then beEnc 4 x.flags else []) ++ (if r.hasOff then beEnc 4 x.off else [])) x.size hxf.2.1
      (by unfold Run.row; rw [hc]; simp only [if_pos, List.append_assoc])
    rw [len] at this
    exact this
  · have := key ((if r.hasDur then beEnc 4 x.dur else []) ++ (if r.hasSize then beEnc 4 x.size else [])) (if r.hasOff then beEnc 4 x.off else []) x.flags hxf.2.2.1
      (by unfold Run.row; rw [hc]; simp only [if_pos])
    rw [List.length_append, len, len, ← Nat.add_assoc] at this
    exact this
  · cases hc : r.hasOff with
    | false => rw [if_neg (by decide), if_neg (by decide)]
    | true =>
      have := key ((if r.hasDur then beEnc 4 x.dur else []) ++ (if r.hasSize then beEnc 4 x.size else []) ++ (if r.hasFlags then beEnc 4 x.flags else [])) [] x.off hxf.2.2.2
        (by unfold Run.row; rw [hc]; simp only [if_pos, List.append_nil])
      rw [List.length_append, List.length_append, len, len, len, ← Nat.add_assoc, ← Nat.add_assoc] at this
      rw [if_pos rfl, if_pos rfl]
      exact this

end Verif.Fmp4
