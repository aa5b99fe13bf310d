import Verif.H264In.Model
import Verif.H264In.Spec
import Verif.SockBuf.Props

/-!
# Lemmas on raw H.264
-/

namespace Verif.H264In
open Verif SockBuf

/-- A block that ends with a start code. -/
def Ends (b : Bytes) : Prop := b.length ≥ code.length ∧ b.drop (b.length - code.length) = code

instance (b : Bytes) : Decidable (Ends b) := by unfold Ends; infer_instance

/-- The units in the blocks of a buffer, and what is behind them. -/
def asm : Bytes → List Bytes → List Bytes × Bytes
  | acc, [] => ([], acc)
  | acc, b :: r => if Ends b then ((acc ++ b) :: (asm [] r).1, (asm [] r).2) else asm (acc ++ b) r

theorem asm_append : ∀ (bs cs : List Bytes) (acc : Bytes),
    asm acc (bs ++ cs) = ((asm acc bs).1 ++ (asm (asm acc bs).2 cs).1, (asm (asm acc bs).2 cs).2) := by
  intro bs
  induction bs with
  | nil => intro cs acc; simp [asm]
  | cons b r ih =>
    intro cs acc
    simp only [List.cons_append, asm]
    by_cases h : Ends b
    · rw [if_pos h, if_pos h, ih]; rfl
    · rw [if_neg h, if_neg h, ih]

theorem asm_len : ∀ (bs : List Bytes) (acc x : Bytes) (q : List Bytes), (asm acc bs).1 = x :: q → acc.length + 3 ≤ x.length := by
  intro bs
  induction bs with
  | nil => intro acc x q h; simp [asm] at h
  | cons b r ih =>
    intro acc x q h
    simp only [asm] at h
    by_cases c : Ends b
    · rw [if_pos c] at h
      simp only [List.cons.injEq] at h
      rw [← h.1, List.length_append]
      have : 3 ≤ b.length := c.1
      omega
    · rw [if_neg c] at h
      have := ih _ _ _ h
      rw [List.length_append] at this
      omega

theorem toSplit_asm : ∀ (bs : List Bytes) (acc : Bytes), acc.length + bs.flatten.length < 2 ^ 32 →
    toSplitLoop code bs acc.length = match (asm acc bs).1 with | [] => 0 | x :: _ => x.length := by
  intro bs
  induction bs with
  | nil => intro acc _; rfl
  | cons b r ih =>
    intro acc h
    simp only [List.flatten_cons, List.length_append] at h
    simp only [toSplitLoop, asm]
    by_cases c : Ends b
    · rw [if_pos c, if_pos (show b.length ≥ code.length ∧ b.drop (b.length - code.length) = code from c), Nat.mod_eq_of_lt (by omega)]
      simp only [List.length_append]
    · rw [if_neg c, if_neg (show ¬ (b.length ≥ code.length ∧ b.drop (b.length - code.length) = code) from c), Nat.mod_eq_of_lt (by omega), ← List.length_append]
      exact ih (acc ++ b) (by rw [List.length_append]; omega)

theorem remove_asm : ∀ (bs : List Bytes) (acc x : Bytes) (q : List Bytes), (asm acc bs).1 = x :: q →
    acc ++ (removeLoop x.length bs acc.length).1 = x ∧ asm [] (removeLoop x.length bs acc.length).2 = (q, (asm acc bs).2) := by
  intro bs
  induction bs with
  | nil => intro acc x q h; simp [asm] at h
  | cons b r ih =>
    intro acc x q h
    simp only [asm, removeLoop] at h ⊢
    have hnil : ¬ Ends [] := fun e => absurd e.1 (by decide)
    by_cases c : Ends b
    · rw [if_pos c] at h ⊢
      simp only [List.cons.injEq] at h
      obtain ⟨rfl, rfl⟩ := h
      rw [List.length_append, if_neg (by omega), show acc.length + b.length - acc.length = b.length from by omega, List.take_length, List.drop_length]
      refine ⟨rfl, ?_⟩
      simp only [asm]
      rw [if_neg hnil]
      rfl
    · rw [if_neg c] at h ⊢
      have hl := asm_len _ _ _ _ h
      rw [List.length_append] at hl
      rw [if_pos (by omega)]
      have := ih (acc ++ b) x q h
      rw [List.length_append] at this
      simp only [asm]
      rw [if_neg hnil]
      exact ⟨by rw [← List.append_assoc]; exact this.1, this.2⟩

theorem asm_pop : ∀ (bs : List Bytes), asm [] (bs.dropWhile (·.isEmpty)) = asm [] bs := by
  intro bs
  induction bs with
  | nil => rfl
  | cons b r ih =>
    cases b with
    | nil =>
      have hnil : ¬ Ends [] := fun e => absurd e.1 (by decide)
      rw [List.dropWhile_cons_of_pos (by rfl), ih]
      simp only [asm]
      rw [if_neg hnil]
      rfl
    | cons c t => rw [List.dropWhile_cons_of_neg (by simp)]

theorem find_code : ∀ (x t : Bytes), (∀ k < x.length, ((x ++ code).drop k).take 3 ≠ code) → findSub code (x ++ code ++ t) = some x.length := by
  intro x
  induction x with
  | nil => intro t _; simp [code, findSub]
  | cons c r ih =>
    intro t h
    have h0 := h 0 (by simp)
    simp only [List.cons_append, findSub]
    rw [if_neg, ih t]
    · rfl
    · intro k hk
      exact h (k + 1) (by simpa using hk)
    · intro e
      rw [List.isPrefixOf_iff_prefix, List.prefix_iff_eq_take] at e
      apply h0
      have hl : 3 ≤ ((c :: r) ++ code).length := by simp [code]
      have h2 : (((c :: r) ++ code) ++ t).take 3 = ((c :: r) ++ code).take 3 := List.take_append_of_le_length hl
      rw [List.drop_zero, ← h2]
      exact e.symm

theorem scan_rest (x : Bytes) (h : ∀ k, (x.drop k).take 3 ≠ code) (hl : x.length ≤ 4096) : ∀ n j, x.length - j = n → j ≤ x.length → scanBlock code x j = x.length := by
  intro n
  induction n with
  | zero =>
    intro j hn hj
    have e : j = x.length := by omega
    subst e
    rw [scanBlock, dif_neg (by omega)]
  | succ n ih =>
    intro j hn hj
    rw [scanBlock, dif_pos ⟨by omega, by simp only [blockSize]; omega⟩, if_neg (fun c => h _ c.2)]
    exact ih (j + 1) (by omega) (by omega)

/-- What a read adds. -/
def added (p : Bytes) : List Bytes → List Bytes
  | [] => []
  | e :: es => (p ++ e) :: es

/-- The beginning of a unit after a read. -/
def left (p : Bytes) (r : Spec.Read) : Bytes := if r.ends = [] then p ++ r.rest else r.rest

theorem cut_read (rest : Bytes) (hr : ∀ k, (rest.drop k).take 3 ≠ code) : ∀ (es : List Bytes) (p : Bytes),
    (∀ x ∈ es, ∀ k < x.length, ((x ++ code).drop k).take 3 ≠ code) → (es.flatMap (· ++ code) ++ rest).length ≤ 4096 →
    asm p (cut code (es.flatMap (· ++ code) ++ rest)) = ((added p es).map (· ++ code), if es = [] then p ++ rest else rest) := by
  have hc : code ≠ [] := by decide
  intro es
  induction es with
  | nil =>
    intro p _ hl
    simp only [List.flatMap_nil, List.nil_append] at hl ⊢
    by_cases h0 : rest = []
    · subst h0
      rw [cut, dif_pos (Or.inl rfl)]
      simp [asm, added]
    · have hn : nextBlock code rest = rest.length := by
        rw [nextBlock, if_neg hc]; exact scan_rest rest hr hl _ 0 rfl (by omega)
      have hpos := List.length_pos_iff.2 h0
      rw [cut, dif_neg (by rw [hn]; rintro (h | h); exact h0 h; omega), hn, List.take_length, List.drop_length, cut, dif_pos (Or.inl rfl)]
      have hne : ¬ Ends rest := by
        rintro ⟨h1, h2⟩
        apply hr (rest.length - code.length)
        rw [h2]; rfl
      simp only [asm]
      rw [if_neg hne]
      simp [added]
  | cons e es ih =>
    intro p hx hl
    have he := hx e (by simp)
    have hsplit : (e :: es).flatMap (· ++ code) ++ rest = e ++ code ++ (es.flatMap (· ++ code) ++ rest) := by simp [List.flatMap_cons]
    rw [hsplit] at hl ⊢
    have hf := find_code e (es.flatMap (· ++ code) ++ rest) he
    have hl3 : (e ++ code).length = e.length + code.length := List.length_append
    have hn : nextBlock code (e ++ code ++ (es.flatMap (· ++ code) ++ rest)) = e.length + code.length := by
      rw [nextBlock, if_neg hc]
      exact scanBlock_first hf hc (by rw [List.length_append, hl3] at hl; simp only [blockSize]; omega) 0 (by simp [code])
    rw [cut, dif_neg (by
      rw [hn]
      rintro (h | h)
      · simp [code] at h
      · simp [code] at h), hn, ← hl3, List.take_left, List.drop_left]
    have hends : Ends (e ++ code) := by
      refine ⟨by rw [hl3]; omega, ?_⟩
      rw [hl3, show e.length + code.length - code.length = e.length from by omega, List.drop_left]
    simp only [asm]
    rw [if_pos hends, ih [] (fun x h => hx x (by simp [h])) (by rw [List.length_append] at hl; omega)]
    cases es with
    | nil => simp [added]
    | cons a as => simp [added]

theorem strip_trim : ∀ x : Bytes, strip x = Spec.trim x := by
  intro x
  induction x with
  | nil => rfl
  | cons c t ih =>
    unfold strip at ih ⊢
    rw [List.reverse_cons, List.dropWhile_append, Spec.trim, ← ih]
    by_cases h : (t.reverse.dropWhile (· = 0)) = []
    · rw [h]
      by_cases hc : c = 0
      · simp [hc]
      · simp [hc]
    · have h' : (t.reverse.dropWhile (· = 0)).isEmpty = false := by simpa using h
      rw [h', if_neg (by decide), if_neg (by
        rintro ⟨_, e⟩
        exact h (by simpa using e))]
      simp

/-- The units taken from the buffer, with the times. -/
def served : List Bytes → Bytes → List (Spec.Read × Nat) → List (Bytes × Nat)
  | _, _, [] => []
  | q, p, (r, now) :: t =>
    match q ++ added p r.ends with
    | [] => served [] (left p r) t
    | x :: q' => (x, now) :: served q' (left p r) t

/-- Handling of units. -/
def feed (e : Env) : St → List (Bytes × Nat) → List Pkt
  | _, [] => []
  | s, (x, now) :: t => (nalUnit e now s (x ++ code)).2.toList ++ feed e (nalUnit e now s (x ++ code)).1 t

theorem unit_buf (e : Env) (now : Nat) (s : St) (b : Buf) (x : Bytes) :
    nalUnit e now { s with buf := b } x = ({ (nalUnit e now s x).1 with buf := b }, (nalUnit e now s x).2) := by
  obtain ⟨buf, sps, pps, init, count⟩ := s
  unfold nalUnit
  simp only
  by_cases h : strip (x.take (x.length - 3)) = []
  · rw [if_pos h, if_pos h]
  · rw [if_neg h, if_neg h]
    by_cases h7 : kind (strip (x.take (x.length - 3))) = 7 ∨ kind (strip (x.take (x.length - 3))) = 8
    · rw [if_pos h7, if_pos h7]; rfl
    · rw [if_neg h7, if_neg h7]
      cases init <;> rfl

theorem feed_buf (e : Env) : ∀ (l : List (Bytes × Nat)) (s : St) (b : Buf), feed e { s with buf := b } l = feed e s l := by
  intro l
  induction l with
  | nil => intro s b; rfl
  | cons x t ih =>
    intro s b
    obtain ⟨x, now⟩ := x
    simp only [feed]
    rw [unit_buf]
    simp only
    rw [ih]

/-- The buffer and the bytes still to come. -/
theorem run_served (e : Env) : ∀ (evs : List (Spec.Read × Nat)) (s : St) (q : List Bytes) (p : Bytes), (∀ ev ∈ evs, ev.1.Ok) → s.buf.splitter = code →
    asm [] s.buf.blocks = (q.map (· ++ code), p) → s.buf.contents.length + (evs.map fun ev => ev.1.bytes.length).sum < 2 ^ 32 →
    run e s (evs.map fun ev => (ev.1.bytes, ev.2)) = feed e s (served q p evs) := by
  intro evs
  induction evs with
  | nil => intro s q p _ _ _ _; rfl
  | cons ev t ih =>
    intro s q p hok hsp hasm hlen
    obtain ⟨r, now⟩ := ev
    obtain ⟨hends, hrest, hne, h4⟩ := hok (r, now) (by simp)
    have hokt : ∀ ev ∈ t, ev.1.Ok := fun ev h => hok ev (by simp [h])
    simp only [List.map_cons, List.sum_cons] at hlen
    generalize hB : s.buf.append r.bytes = B
    have hBsp : B.splitter = code := by rw [← hB]; exact hsp
    have hBc : B.contents = s.buf.contents ++ r.bytes := by
      rw [← hB]
      simp only [Buf.contents, Buf.append, List.flatten_append, cut_flatten]
    have hBlen : B.contents.length = s.buf.contents.length + r.bytes.length := by rw [hBc, List.length_append]
    have hBasm : asm [] B.blocks = ((q ++ added p r.ends).map (· ++ code), left p r) := by
      rw [← hB]
      simp only [Buf.append]
      rw [asm_append, hasm, hsp]
      have := cut_read r.rest hrest r.ends p hends h4
      rw [show r.bytes = r.ends.flatMap (· ++ code) ++ r.rest from rfl, this]
      simp [left]
    have hsplit : B.bytesToSplit = match (q ++ added p r.ends).map (· ++ code) with | [] => 0 | x :: _ => x.length := by
      have := toSplit_asm B.blocks [] (by have : B.blocks.flatten.length = B.contents.length := rfl; simp only [List.length_nil]; omega)
      rw [hBasm] at this
      rw [← this]
      unfold Buf.bytesToSplit
      rw [hBsp]
      rfl
    simp only [List.map_cons, run, served]
    cases hq : q ++ added p r.ends with
    | nil =>
      rw [hq] at hsplit hBasm
      have hstep : step e s (r.bytes, now) = ({ s with buf := B }, none) := by
        unfold step
        simp only
        rw [if_neg hne, hB, if_pos (by rw [hsplit]; rfl)]
      rw [hstep]
      simp only [Option.toList_none, List.nil_append]
      rw [ih { s with buf := B } [] (left p r) hokt hBsp hBasm (by show B.contents.length + _ < _; omega), feed_buf]
    | cons x q' =>
      rw [hq] at hsplit hBasm
      simp only [List.map_cons] at hsplit hBasm
      have h1 : (asm [] B.popEmpty.blocks).1 = (x ++ code) :: q'.map (· ++ code) := by
        show (asm [] (B.blocks.dropWhile (·.isEmpty))).1 = _
        rw [asm_pop, hBasm]
      have h1' : (asm [] B.popEmpty.blocks).2 = left p r := by
        show (asm [] (B.blocks.dropWhile (·.isEmpty))).2 = _
        rw [asm_pop, hBasm]
      have h2 := remove_asm B.popEmpty.blocks [] _ _ h1
      rw [h1'] at h2
      simp only [List.nil_append, List.length_nil] at h2
      have hpos : 0 < (x ++ code).length := by simp [code]
      have hle : (x ++ code).length ≤ B.contents.length ∧ B.contents ≠ [] := by
        have hc := C16_bytesToSplit B (by omega) (by rw [hsplit]; omega)
        rw [hsplit] at hc
        refine ⟨hc.1, ?_⟩
        intro e0
        rw [e0] at hc
        simp only [List.length_nil] at hc
        omega
      have hav : (B.popEmpty.available (x ++ code).length).1 = true := by
        have hpc := popEmpty_contents B
        rw [available_eq _ _ (by omega) (by rw [hpc]; omega), hpc, decide_eq_true hle.1]
        cases hcc : B.contents with
        | nil => exact absurd hcc hle.2
        | cons a b => rfl
      have hrem : B.remove B.bytesToSplit = (x ++ code, { B with blocks := (removeLoop (x ++ code).length B.popEmpty.blocks 0).2 }) := by
        rw [hsplit]
        unfold Buf.remove
        rw [if_pos hav]
        simp only
        rw [h2.1]
      generalize hB2 : ({ B with blocks := (removeLoop (x ++ code).length B.popEmpty.blocks 0).2 } : Buf) = B2 at hrem
      have hstep : step e s (r.bytes, now) = nalUnit e now { s with buf := B2 } (x ++ code) := by
        unfold step
        simp only
        rw [if_neg hne, hB, if_neg (by rw [hsplit]; omega), hrem]
      have hB2asm : asm [] B2.blocks = (q'.map (· ++ code), left p r) := by rw [← hB2]; exact h2.2
      have hB2len : B2.contents.length ≤ B.contents.length := by
        rw [← hB2]
        show ((removeLoop (x ++ code).length B.popEmpty.blocks 0).2).flatten.length ≤ _
        rw [(removeLoop_eq _ _ 0 (Nat.zero_le _)).2, List.length_drop]
        have := popEmpty_contents B
        unfold Buf.contents at this
        rw [this]
        exact Nat.sub_le _ _
      rw [hstep, unit_buf]
      simp only [feed]
      congr 1
      rw [ih { (nalUnit e now s (x ++ code)).1 with buf := B2 } q' (left p r) hokt (by rw [← hB2]; exact hBsp) hB2asm
        (by show B2.contents.length + _ < _; omega), feed_buf]

end Verif.H264In
