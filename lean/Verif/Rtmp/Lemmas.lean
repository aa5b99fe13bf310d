import Verif.Rtmp.Model
import Verif.Ebml.Lemmas

namespace Verif.Rtmp
open Verif.Bit Verif.Ebml

/-! ## Reading only looks at a prefix -/

theorem btoh_append (c : Codec) (a x : Bytes) (h : c.width ≤ a.length) : btoh c (a ++ x) = btoh c a := by
  have e1 := btoh_eq c (a.take c.width) (a.drop c.width ++ x) (by simp; omega)
  have e2 := btoh_eq c (a.take c.width) (a.drop c.width) (by simp; omega)
  rw [← List.append_assoc, List.take_append_drop] at e1
  rw [List.take_append_drop] at e2
  rw [e1, e2]

theorem get24_append (a x : Bytes) (h : 3 ≤ a.length) : get24 (a ++ x) = get24 a := by
  unfold get24; rw [btoh_append .b24 a x h]

theorem getD_append_left (a x : Bytes) (i : Nat) (h : i < a.length) : (a ++ x).getD i 0 = a.getD i 0 := by
  simp [List.getD, List.getElem?_append_left h]

theorem basicIn_append (a x : Bytes) (h : 3 ≤ a.length) : basicIn (a ++ x) = basicIn a := by
  unfold basicIn
  rw [getD_append_left a x 0 (by omega), getD_append_left a x 1 (by omega), getD_append_left a x 2 (by omega)]

theorem basicIn_used (d : Bytes) : 1 ≤ (basicIn d).2.2 ∧ (basicIn d).2.2 ≤ 3 := by
  unfold basicIn
  simp only
  split
  · simp
  · split <;> simp

theorem readHdr_append {ht : Nat} {prev : Prev} {a x : Bytes} {h : Hdr} (hh : readHdr ht prev a = some h) :
    readHdr ht prev (a ++ x) = some h ∧ h.used ≤ a.length ∧ h.used ≤ 11 := by
  unfold readHdr at hh ⊢
  split at hh
  next h0 =>
    split at hh
    · cases hh
    next hl =>
      rw [if_pos h0, if_neg (by simp; omega)]
      rw [← hh, get24_append a x (by omega), List.drop_append_of_le_length (by omega), get24_append _ x (by simp; omega),
        getD_append_left a x 6 (by omega), List.drop_append_of_le_length (by omega), btoh_append .l_le _ x (by simp [Codec.width]; omega)]
      simp only [Option.some.injEq] at hh
      exact ⟨rfl, by rw [← hh]; simp only; omega, by rw [← hh]; simp⟩
  next h0 =>
    rw [if_neg h0]
    split at hh
    next h1 =>
      split at hh
      · cases hh
      next hl =>
        rw [if_pos h1, if_neg (by simp; omega)]
        rw [← hh, get24_append a x (by omega), List.drop_append_of_le_length (by omega), get24_append _ x (by simp; omega),
          getD_append_left a x 6 (by omega)]
        simp only [Option.some.injEq] at hh
        exact ⟨rfl, by rw [← hh]; simp only; omega, by rw [← hh]; simp⟩
    next h1 =>
      rw [if_neg h1]
      split at hh
      next h2 =>
        split at hh
        · cases hh
        next hl =>
          rw [if_pos h2, if_neg (by simp; omega)]
          rw [← hh, get24_append a x (by omega)]
          simp only [Option.some.injEq] at hh
          exact ⟨rfl, by rw [← hh]; simp only; omega, by rw [← hh]; simp⟩
      next h2 =>
        rw [if_neg h2]
        refine ⟨hh, ?_, ?_⟩ <;> (simp only [Option.some.injEq] at hh; rw [← hh]; simp)

theorem readExt_append {prev : Prev} {h h' : Hdr} {a x : Bytes} (hu : h.used ≤ a.length) (hh : readExt prev h a = some h') :
    readExt prev h (a ++ x) = some h' ∧ h'.used ≤ a.length ∧ h'.used ≤ h.used + 4 := by
  unfold readExt at hh ⊢
  split at hh
  next h0 =>
    rw [if_pos h0]
    split at hh
    · cases hh
    next hl =>
      simp only [List.length_drop] at hl
      rw [if_neg (by simp; omega), List.drop_append_of_le_length hu, btoh_append .l _ x (by simp [Codec.width]; omega)]
      refine ⟨hh, ?_, ?_⟩ <;> (simp only [Option.some.injEq] at hh; rw [← hh]; simp; try omega)
  next h0 =>
    rw [if_neg h0]
    refine ⟨hh, ?_, ?_⟩ <;> (simp only [Option.some.injEq] at hh; rw [← hh]; try omega)

theorem takePayload_append {recMax cs i : Nat} {prev : Prev} {h : Hdr} {q x : Bytes} {cs' : Nat} {p : Prev} {m : Option Msg} {r : Bytes}
    (hh : takePayload recMax cs i prev h q = .got cs' p m r) : takePayload recMax cs i prev h (q ++ x) = .got cs' p m (r ++ x) := by
  unfold takePayload at hh ⊢
  split at hh
  · cases hh
  next hn =>
    simp only [not_or] at hn
    have hl : i + realLen recMax h ≤ q.length := by omega
    rw [if_neg (by simp only [List.length_append, not_or]; exact ⟨by omega, by simp [hn.2]⟩)]
    rw [List.drop_append_of_le_length (by omega), List.take_append_of_le_length (by simp; omega), List.drop_append_of_le_length (by simp; omega)]
    simp only [Step.got.injEq] at hh ⊢
    obtain ⟨rfl, rfl, rfl, rfl⟩ := hh
    exact ⟨rfl, rfl, rfl, rfl⟩

/-- A round that succeeds does the same when more bytes follow. -/
theorem parseChunk_append {recMax : Nat} {last : Nat → Prev} {q x : Bytes} {cs : Nat} {p : Prev} {m : Option Msg} {r : Bytes}
    (hh : parseChunk recMax last q = .got cs p m r) : parseChunk recMax last (q ++ x) = .got cs p m (r ++ x) := by
  unfold parseChunk at hh ⊢
  simp only at hh ⊢
  split at hh
  · cases hh
  next hl =>
    have e : (q ++ x).take 18 = q.take 18 ++ x.take (18 - q.length) := List.take_append
    rw [e, if_neg (by simp only [List.length_append]; omega), basicIn_append _ _ (by omega)]
    have hb := basicIn_used (q.take 18)
    generalize basicIn (q.take 18) = b at hb hh ⊢
    rw [List.drop_append_of_le_length (by omega)]
    split at hh
    · cases hh
    next h hr =>
      obtain ⟨hr', hu, -⟩ := readHdr_append (x := x.take (18 - q.length)) hr
      rw [hr']
      simp only
      split at hh
      · cases hh
      next h2 he =>
        obtain ⟨he', -, -⟩ := readExt_append (x := x.take (18 - q.length)) hu he
        rw [he']
        exact takePayload_append hh

theorem parseChunk_shrinks {recMax : Nat} {last : Nat → Prev} {q : Bytes} {cs : Nat} {p : Prev} {m : Option Msg} {r : Bytes}
    (hh : parseChunk recMax last q = .got cs p m r) : r.length < q.length := by
  unfold parseChunk at hh
  simp only at hh
  split at hh
  · cases hh
  next hl =>
    have hb := basicIn_used (q.take 18)
    generalize basicIn (q.take 18) = b at hb hh
    split at hh
    · cases hh
    next h hr =>
      split at hh
      · cases hh
      next h2 he =>
        unfold takePayload at hh
        split at hh
        · cases hh
        next hn =>
          simp only [Step.got.injEq] at hh
          rw [← hh.2.2.2]
          simp only [List.length_drop]
          simp only [not_or] at hn
          have : 0 < q.length := List.length_pos_iff.mpr hn.2
          omega

/-! ## Parsing what was packed -/

theorem basic_small : ∀ (k : Fin 4) (cs : Fin 64), 2 ≤ cs.val →
    (UInt8.ofNat ((k.val * 0x40) ||| cs.val)) &&& 0x3F ≠ 0 ∧ (UInt8.ofNat ((k.val * 0x40) ||| cs.val)) &&& 0x3F ≠ 1 ∧
    ((UInt8.ofNat ((k.val * 0x40) ||| cs.val)) &&& 0x3F).toNat = cs.val ∧ (UInt8.ofNat ((k.val * 0x40) ||| cs.val)).toNat &&& 0xC0 = k.val * 0x40 := by
  decide +kernel

theorem basic_large : ∀ (k : Fin 4), (UInt8.ofNat ((k.val * 0x40) ||| 0)) &&& 0x3F = 0 ∧ (UInt8.ofNat ((k.val * 0x40) ||| 1)) &&& 0x3F = 1 ∧
    (UInt8.ofNat ((k.val * 0x40) ||| 0)).toNat &&& 0xC0 = k.val * 0x40 ∧ (UInt8.ofNat ((k.val * 0x40) ||| 1)).toNat &&& 0xC0 = k.val * 0x40 := by
  decide +kernel

def chunkType (ct : Nat) : Prop := ct = 0x00 ∨ ct = 0x40 ∨ ct = 0x80 ∨ ct = 0xC0

theorem basic_roundtrip {ct cs : Nat} (hct : chunkType ct) (h1 : 2 ≤ cs) (h2 : cs ≤ 65599) (y : Bytes) :
    (basicIn (basicOut ct cs ++ y)).2.1 = cs ∧ (basicIn (basicOut ct cs ++ y)).2.2 = (basicOut ct cs).length ∧
      (basicIn (basicOut ct cs ++ y)).1 &&& 0xC0 = ct := by
  obtain ⟨k, rfl⟩ : ∃ k : Fin 4, ct = k.val * 0x40 := by
    rcases hct with rfl | rfl | rfl | rfl
    · exact ⟨0, rfl⟩
    · exact ⟨1, rfl⟩
    · exact ⟨2, rfl⟩
    · exact ⟨3, rfl⟩
  unfold basicOut
  by_cases ha : cs ≤ 63
  · obtain ⟨a, b, c, d⟩ := basic_small k ⟨cs, by omega⟩ h1
    simp only at a b c d
    rw [if_pos ha]
    unfold basicIn
    simp only [List.cons_append, List.nil_append, List.getD_cons_zero]
    rw [if_neg a, if_neg b]
    exact ⟨c, rfl, d⟩
  · obtain ⟨a, b, c, d⟩ := basic_large k
    rw [if_neg ha]
    by_cases hb : cs ≤ 255 + 64
    · rw [if_pos hb]
      unfold basicIn
      simp only [List.cons_append, List.nil_append, List.getD_cons_zero, List.getD_cons_succ]
      rw [if_pos a]
      refine ⟨?_, rfl, c⟩
      simp only [u8n]; omega
    · rw [if_neg hb]
      unfold basicIn
      simp only [List.cons_append, List.nil_append, List.getD_cons_zero, List.getD_cons_succ]
      rw [if_neg (by rw [b]; decide), if_pos b]
      refine ⟨?_, rfl, d⟩
      simp only [u8n]; omega

theorem basicOut_length (ct cs : Nat) : 1 ≤ (basicOut ct cs).length ∧ (basicOut ct cs).length ≤ 3 := by
  unfold basicOut
  split
  · simp
  · split <;> simp

/-- One round on a chunk with a known header. -/
theorem parseChunk_header {recMax : Nat} {last : Nat → Prev} {ct cs : Nat} {M X : Bytes} {h h' : Hdr} (hct : chunkType ct) (h1 : 2 ≤ cs)
    (h2 : cs ≤ 65599) (hM : M.length ≤ 15) (hr : ∀ y, readHdr ct (last cs) (M ++ y) = some h) (he : ∀ y, readExt (last cs) h (M ++ y) = some h')
    (hu : h'.used = M.length) (h3 : 3 ≤ (basicOut ct cs ++ M ++ X).length) :
    parseChunk recMax last (basicOut ct cs ++ M ++ X) =
      takePayload recMax cs (basicOut ct cs ++ M).length (last cs) h' (basicOut ct cs ++ M ++ X) := by
  have hB := basicOut_length ct cs
  have e : (basicOut ct cs ++ M ++ X).take 18 = basicOut ct cs ++ (M ++ X.take (18 - (basicOut ct cs ++ M).length)) := by
    rw [List.take_append, List.take_of_length_le (by simp; omega), List.append_assoc]
  obtain ⟨b1, b2, b3⟩ := basic_roundtrip hct h1 h2 (M ++ X.take (18 - (basicOut ct cs ++ M).length))
  unfold parseChunk
  simp only
  rw [if_neg (by rw [List.length_take]; omega), e, b1, b2, b3, List.drop_left, hr]
  simp only
  rw [he]
  simp only
  rw [hu]
  simp only [List.length_append]

theorem takePayload_ok {recMax cs : Nat} {prev : Prev} {h : Hdr} {H pay tail : Bytes} (hH : 0 < H.length) (hp : pay.length = realLen recMax h) :
    takePayload recMax cs H.length prev h (H ++ pay ++ tail) =
      .got cs ⟨h.timestamp, h.tsDelta, h.tsHeader, h.len, leftAfter recMax h, h.mtype, h.mstream,
          if leftAfter recMax h ≠ 0 then (if pay.length ≠ 0 ∧ prev.lenLeft ≠ 0 then prev.data else []) ++ pay else []⟩
        (if pay.length = 0 ∨ leftAfter recMax h = 0 then
          some ⟨cs, h.timestamp, h.mtype, h.mstream, (if pay.length ≠ 0 ∧ prev.lenLeft ≠ 0 then prev.data else []) ++ pay⟩ else none) tail := by
  unfold takePayload
  have hne : H ++ pay ++ tail ≠ [] := by
    intro hh; have := congrArg List.length hh; simp only [List.length_append, List.length_nil] at this; omega
  rw [if_neg (by simp only [List.length_append, not_or]; exact ⟨by omega, hne⟩)]
  rw [← hp]
  simp only [List.append_assoc, List.drop_left, List.take_left]

/-! ## Draining -/

/-- Everything a connection does with the bytes it has: `Chunk::Parse` until it returns false, the
handler changing the receive chunk size after each message (`onMsg`; output_rtmp.cpp 1541-1560).
Returns the messages, the chunk size, the per-stream memory and the bytes left. -/
def drain (onMsg : Nat → Msg → Nat) (recMax : Nat) (last : Nat → Prev) (q : Bytes) : List Msg × Nat × (Nat → Prev) × Bytes :=
  match _h : parseChunk recMax last q with
  | .wait => ([], recMax, last, q)
  | .got cs p none rest => drain onMsg recMax (update last cs p) rest
  | .got cs p (some m) rest => (m :: (drain onMsg (onMsg recMax m) (update last cs p) rest).1,
      (drain onMsg (onMsg recMax m) (update last cs p) rest).2)
  termination_by q.length
  decreasing_by all_goals exact parseChunk_shrinks _h

variable {onMsg : Nat → Msg → Nat} {recMax : Nat} {last : Nat → Prev} {q : Bytes}

theorem drain_wait (h : parseChunk recMax last q = .wait) : drain onMsg recMax last q = ([], recMax, last, q) := by
  rw [drain.eq_def]
  split
  · rfl
  next h' => rw [h] at h'; cases h'
  next h' => rw [h] at h'; cases h'

theorem drain_part {cs p rest} (h : parseChunk recMax last q = .got cs p none rest) :
    drain onMsg recMax last q = drain onMsg recMax (update last cs p) rest := by
  rw [drain.eq_def]
  split
  next h' => rw [h] at h'; cases h'
  next h' => rw [h] at h'; cases h'; rfl
  next h' => rw [h] at h'; cases h'

theorem drain_msg {cs p m rest} (h : parseChunk recMax last q = .got cs p (some m) rest) :
    drain onMsg recMax last q = (m :: (drain onMsg (onMsg recMax m) (update last cs p) rest).1,
      (drain onMsg (onMsg recMax m) (update last cs p) rest).2) := by
  rw [drain.eq_def]
  split
  next h' => rw [h] at h'; cases h'
  next h' => rw [h] at h'; cases h'
  next h' => rw [h] at h'; cases h'; rfl

theorem drain_append (onMsg : Nat → Msg → Nat) (recMax : Nat) (last : Nat → Prev) (q x : Bytes) :
    drain onMsg recMax last (q ++ x) =
      let r := drain onMsg recMax last q
      let s := drain onMsg r.2.1 r.2.2.1 (r.2.2.2 ++ x)
      (r.1 ++ s.1, s.2) := by
  induction hn : q.length using Nat.strongRecOn generalizing recMax last q with
  | ind n ih =>
    cases h : parseChunk recMax last q with
    | wait => rw [drain_wait h]; simp
    | got cs p m rest =>
      have hs := parseChunk_shrinks h
      cases m with
      | none =>
        rw [drain_part h, drain_part (parseChunk_append h)]
        exact ih _ (by omega) _ _ _ rfl
      | some m =>
        rw [drain_msg h, drain_msg (parseChunk_append h)]
        have := ih rest.length (by omega) (onMsg recMax m) (update last cs p) rest rfl
        rw [this]
        simp

theorem update_update (last : Nat → Prev) (cs : Nat) (p p' : Prev) : update (update last cs p) cs p' = update last cs p' := by
  funext x; unfold update; split <;> rfl

theorem update_self (last : Nat → Prev) (cs : Nat) (p : Prev) : update last cs p cs = p := by
  unfold update; simp

theorem body_small {c : Nat} {cont data : Bytes} (h : data.length ≤ c) : body c cont data = data := by
  rw [body.eq_def, dif_pos (Or.inr h)]

theorem body_big {c : Nat} {cont data : Bytes} (h1 : c ≠ 0) (h : c < data.length) :
    body c cont data = data.take c ++ (cont ++ body c cont (data.drop c)) := by
  rw [body.eq_def, dif_neg (by omega), List.append_assoc]

theorem body_length {c : Nat} {cont data : Bytes} : data.length ≤ (body c cont data).length := by
  induction hn : data.length using Nat.strongRecOn generalizing data with
  | ind n ih =>
    by_cases h : c = 0 ∨ data.length ≤ c
    · rw [body.eq_def, dif_pos h]; omega
    · have h' : c < data.length := by omega
      rw [body_big (by omega) h']
      have := ih (data.drop c).length (by simp; omega) rfl
      simp at this ⊢
      omega

/-- What the reader needs to see in every later header of a message with the given time. -/
def extOf (tsHeader t : Nat) : Bytes := if tsHeader = 0xffffff then htob .l t else []

theorem htob_l_length (t : Nat) : (htob .l t).length = 4 := by rw [htob_be .l rfl]; simp [Codec.width]

theorem btoh_l_ext (t : Nat) (h : t < 2 ^ 32) (y : Bytes) : btoh .l (htob .l t ++ y) = some t := by
  rw [htob_be .l rfl, btoh_be .l rfl]
  exact congrArg some (Nat.mod_eq_of_lt (by simpa [Codec.width] using h))

theorem readExt_none {prev : Prev} {h : Hdr} (hx : h.tsHeader ≠ 0xffffff) (d : Bytes) : readExt prev h d = some h := by
  unfold readExt; rw [if_neg hx]

theorem readExt_some {prev : Prev} {h : Hdr} {M y : Bytes} {t : Nat} (hx : h.tsHeader = 0xffffff) (hu : h.used = M.length) (ht : t < 2 ^ 31) :
    readExt prev h (M ++ htob .l t ++ y) = some { h with timestamp := t, tsDelta := t, used := h.used + 4 } := by
  unfold readExt
  rw [if_pos hx, List.append_assoc, hu, List.drop_left, if_neg (by simp [htob_l_length])]
  simp only [btoh_l_ext t (by omega), Option.getD_some]
  have : sext t = t := by unfold sext; rw [if_pos ht]
  rw [this, if_neg (by omega)]

/-- The reader's memory after the last chunk of a message. -/
def finished (p : Prev) : Prev :=
  { p with lenLeft := 0, data := [], tsDelta := if p.tsHeader = 0xffffff then p.timestamp else p.tsDelta }

theorem extOf_length (a t : Nat) : (extOf a t).length ≤ 4 := by
  unfold extOf; split <;> simp [htob_l_length]

/-- The continuation chunks of a message. -/
theorem drain_rest {c cs : Nat} {p : Prev} {data rest : Bytes} (hc : 1 ≤ c) (h1 : 2 ≤ cs) (h2 : cs ≤ 65599) (hp : last cs = p)
    (ht : p.timestamp < 2 ^ 31) (hl : p.lenLeft = data.length) (hd : data ≠ []) (hr : 2 ≤ rest.length) :
    drain onMsg c last (basicOut 0xC0 cs ++ extOf p.tsHeader p.timestamp ++ body c (basicOut 0xC0 cs ++ extOf p.tsHeader p.timestamp) data ++ rest) =
      (⟨cs, p.timestamp, p.mtype, p.mstream, p.data ++ data⟩ ::
        (drain onMsg (onMsg c ⟨cs, p.timestamp, p.mtype, p.mstream, p.data ++ data⟩) (update last cs (finished p)) rest).1,
        (drain onMsg (onMsg c ⟨cs, p.timestamp, p.mtype, p.mstream, p.data ++ data⟩) (update last cs (finished p)) rest).2) := by
  induction hn : data.length using Nat.strongRecOn generalizing last p data with
  | ind n ih =>
    have hpos : 0 < data.length := List.length_pos_iff.mpr hd
    have hB := basicOut_length 0xC0 cs
    have hE := extOf_length p.tsHeader p.timestamp
    obtain ⟨h', hh', hu', e1, e2, e3, e4, e5, e6, e7⟩ : ∃ h' : Hdr, (∀ y, ∃ h, readHdr 0xC0 (last cs) (extOf p.tsHeader p.timestamp ++ y) = some h ∧
        readExt (last cs) h (extOf p.tsHeader p.timestamp ++ y) = some h') ∧ h'.used = (extOf p.tsHeader p.timestamp).length ∧ h'.timestamp = p.timestamp ∧
        h'.tsDelta = (if p.tsHeader = 0xffffff then p.timestamp else p.tsDelta) ∧
        h'.tsHeader = p.tsHeader ∧ h'.len = p.len ∧ h'.lenLeft = p.lenLeft ∧ h'.mtype = p.mtype ∧ h'.mstream = p.mstream := by
      rw [hp]
      by_cases hx : p.tsHeader = 0xffffff
      · refine ⟨⟨p.timestamp, p.timestamp, p.tsHeader, p.len, p.lenLeft, p.mtype, p.mstream, 4⟩, fun y => ?_, ?_, rfl, ?_, rfl, rfl, rfl, rfl, rfl⟩
        · refine ⟨_, rfl, ?_⟩
          have := readExt_some (prev := p) (M := []) (y := y)
            (h := ⟨if p.lenLeft > 0 then p.timestamp else (p.timestamp + p.tsDelta) % 2 ^ 64, p.tsDelta, p.tsHeader, p.len, p.lenLeft, p.mtype, p.mstream, 0⟩) hx rfl ht
          rw [List.nil_append] at this
          unfold extOf; rw [if_pos hx, this]
        · unfold extOf; rw [if_pos hx, htob_l_length]
        · rw [if_pos hx]
      · refine ⟨⟨p.timestamp, p.tsDelta, p.tsHeader, p.len, p.lenLeft, p.mtype, p.mstream, 0⟩, fun y => ?_, ?_, rfl, ?_, rfl, rfl, rfl, rfl, rfl⟩
        · refine ⟨_, rfl, ?_⟩
          rw [readExt_none hx, if_pos (by omega)]
        · unfold extOf; rw [if_neg hx]; rfl
        · rw [if_neg hx]
    have key : ∀ (pay tail : Bytes), pay.length = realLen c h' → 3 ≤ (basicOut 0xC0 cs ++ extOf p.tsHeader p.timestamp ++ (pay ++ tail)).length →
        parseChunk c last (basicOut 0xC0 cs ++ extOf p.tsHeader p.timestamp ++ (pay ++ tail)) = .got cs ⟨h'.timestamp, h'.tsDelta, h'.tsHeader, h'.len, leftAfter c h', h'.mtype, h'.mstream,
          if leftAfter c h' ≠ 0 then (if pay.length ≠ 0 ∧ p.lenLeft ≠ 0 then p.data else []) ++ pay else []⟩
        (if pay.length = 0 ∨ leftAfter c h' = 0 then
          some ⟨cs, h'.timestamp, h'.mtype, h'.mstream, (if pay.length ≠ 0 ∧ p.lenLeft ≠ 0 then p.data else []) ++ pay⟩ else none) tail := by
      intro pay tail hpay h3
      obtain ⟨h, -, -⟩ := hh' []
      have hr0 : ∀ y, ∃ h, readHdr 0xC0 (last cs) (extOf p.tsHeader p.timestamp ++ y) = some h ∧ readExt (last cs) h (extOf p.tsHeader p.timestamp ++ y) = some h' := hh'
      obtain ⟨h0, hq⟩ : ∃ h0, ∀ y, readHdr 0xC0 (last cs) (extOf p.tsHeader p.timestamp ++ y) = some h0 := ⟨_, fun y => rfl⟩
      have he0 : ∀ y, readExt (last cs) h0 (extOf p.tsHeader p.timestamp ++ y) = some h' := by
        intro y
        obtain ⟨h2, a, b⟩ := hr0 y
        rw [hq y] at a
        cases a
        exact b
      rw [parseChunk_header (by simp [chunkType]) h1 h2 (by omega) hq he0 hu' h3, hp, ← List.append_assoc (_ ++ _) pay tail]
      exact takePayload_ok (by simp; omega) hpay
    have hleft : leftAfter c h' = data.length - c := by unfold leftAfter; rw [e5, hl, if_pos hpos]
    have hreal : realLen c h' = min data.length c := by unfold realLen; rw [e5, hl, if_pos hpos]
    by_cases hs : data.length ≤ c
    · rw [body_small hs, List.append_assoc (_ ++ _) data rest]
      have hk := key data rest (by omega) (by simp; omega)
      rw [hleft, e1, e2, e3, e4, e6, e7, if_pos (show data.length = 0 ∨ data.length - c = 0 by omega), if_pos (show data.length ≠ 0 ∧ p.lenLeft ≠ 0 by omega),
        if_neg (show ¬ (data.length - c ≠ 0) by omega)] at hk
      rw [drain_msg hk]
      rw [show data.length - c = 0 by omega]
      rfl
    · have hb := body_big (c := c) (cont := basicOut 0xC0 cs ++ extOf p.tsHeader p.timestamp) (data := data) (by omega) (by omega)
      have hbl := body_length (c := c) (cont := basicOut 0xC0 cs ++ extOf p.tsHeader p.timestamp) (data := data.drop c)
      rw [hb, List.append_assoc (_ ++ _), List.append_assoc (data.take c)]
      have hk := key (data.take c) (basicOut 0xC0 cs ++ extOf p.tsHeader p.timestamp ++ body c (basicOut 0xC0 cs ++ extOf p.tsHeader p.timestamp) (data.drop c) ++ rest)
        (by simp; omega) (by simp at hbl ⊢; omega)
      rw [hleft, e1, e2, e3, e4, e6, e7, if_neg (show ¬ ((data.take c).length = 0 ∨ data.length - c = 0) by simp only [List.length_take]; omega),
        if_pos (show (data.take c).length ≠ 0 ∧ p.lenLeft ≠ 0 by simp only [List.length_take]; omega), if_pos (show data.length - c ≠ 0 by omega)] at hk
      rw [drain_part hk]
      have := ih (data.drop c).length (by simp; omega)
        (last := update last cs ⟨p.timestamp, if p.tsHeader = 0xffffff then p.timestamp else p.tsDelta, p.tsHeader, p.len, data.length - c, p.mtype, p.mstream, p.data ++ data.take c⟩)
        (p := ⟨p.timestamp, if p.tsHeader = 0xffffff then p.timestamp else p.tsDelta, p.tsHeader, p.len, data.length - c, p.mtype, p.mstream, p.data ++ data.take c⟩)
        (data := data.drop c) (update_self _ _ _) ht (by simp) (by intro h; have := congrArg List.length h; simp at this; omega) rfl
      simp only at this
      rw [this, update_update, List.append_assoc, List.take_append_drop]
      have hf : finished ⟨p.timestamp, if p.tsHeader = 0xffffff then p.timestamp else p.tsDelta, p.tsHeader, p.len, data.length - c, p.mtype, p.mstream, p.data ++ data.take c⟩ = finished p := by
        unfold finished
        by_cases hx : p.tsHeader = 0xffffff <;> simp [hx]
      rw [hf]

/-- A whole message, given what its first header says. -/
theorem drain_message {c ct cs : Nat} {M data rest : Bytes} {h h' : Hdr} (hc : 1 ≤ c) (hct : chunkType ct) (h1 : 2 ≤ cs) (h2 : cs ≤ 65599)
    (hM : M.length ≤ 15) (hr : ∀ y, readHdr ct (last cs) (M ++ y) = some h) (he : ∀ y, readExt (last cs) h (M ++ y) = some h')
    (hu : h'.used = M.length) (ht : h'.timestamp < 2 ^ 31) (hlen : h'.len = data.length) (hll : h'.lenLeft = 0) (hidle : (last cs).lenLeft = 0)
    (hrest : 2 ≤ rest.length) :
    ∃ p' : Prev, p'.timestamp = h'.timestamp ∧ p'.tsHeader = h'.tsHeader ∧ p'.len = h'.len ∧ p'.lenLeft = 0 ∧ p'.mtype = h'.mtype ∧ p'.mstream = h'.mstream ∧
      (h'.tsHeader ≠ 0xffffff → p'.tsDelta = h'.tsDelta) ∧
    drain onMsg c last (basicOut ct cs ++ M ++ body c (basicOut 0xC0 cs ++ extOf h'.tsHeader h'.timestamp) data ++ rest) =
      (⟨cs, h'.timestamp, h'.mtype, h'.mstream, data⟩ ::
        (drain onMsg (onMsg c ⟨cs, h'.timestamp, h'.mtype, h'.mstream, data⟩) (update last cs p') rest).1,
        (drain onMsg (onMsg c ⟨cs, h'.timestamp, h'.mtype, h'.mstream, data⟩) (update last cs p') rest).2) := by
  have hB := basicOut_length ct cs
  have hB' := basicOut_length 0xC0 cs
  have hleft : leftAfter c h' = data.length - c := by unfold leftAfter; rw [hll, hlen, if_neg (by omega)]
  have hreal : realLen c h' = min data.length c := by unfold realLen; rw [hll, hlen, if_neg (by omega)]
  have key : ∀ (pay tail : Bytes), pay.length = realLen c h' → 3 ≤ (basicOut ct cs ++ M ++ (pay ++ tail)).length →
      parseChunk c last (basicOut ct cs ++ M ++ (pay ++ tail)) = .got cs ⟨h'.timestamp, h'.tsDelta, h'.tsHeader, h'.len, leftAfter c h', h'.mtype, h'.mstream,
          if leftAfter c h' ≠ 0 then pay else []⟩
        (if pay.length = 0 ∨ leftAfter c h' = 0 then some ⟨cs, h'.timestamp, h'.mtype, h'.mstream, pay⟩ else none) tail := by
    intro pay tail hpay h3
    rw [parseChunk_header hct h1 h2 hM hr he hu h3, ← List.append_assoc (_ ++ _) pay tail,
      takePayload_ok (by simp; omega) hpay, hidle]
    simp
  by_cases hs : data.length ≤ c
  · refine ⟨⟨h'.timestamp, h'.tsDelta, h'.tsHeader, h'.len, 0, h'.mtype, h'.mstream, []⟩, rfl, rfl, rfl, rfl, rfl, rfl, fun _ => rfl, ?_⟩
    rw [body_small hs, List.append_assoc (_ ++ _) data rest]
    have hk := key data rest (by omega) (by simp; omega)
    rw [hleft, show data.length - c = 0 by omega, if_pos (Or.inr rfl)] at hk
    rw [drain_msg hk]
    rfl
  · refine ⟨finished ⟨h'.timestamp, h'.tsDelta, h'.tsHeader, h'.len, data.length - c, h'.mtype, h'.mstream, data.take c⟩, rfl, rfl, rfl, rfl, rfl, rfl, ?_, ?_⟩
    · intro hx; unfold finished; exact if_neg hx
    have hb := body_big (c := c) (cont := basicOut 0xC0 cs ++ extOf h'.tsHeader h'.timestamp) (data := data) (by omega) (by omega)
    have hbl := body_length (c := c) (cont := basicOut 0xC0 cs ++ extOf h'.tsHeader h'.timestamp) (data := data.drop c)
    rw [hb, List.append_assoc (_ ++ _), List.append_assoc (data.take c)]
    have hk := key (data.take c) (basicOut 0xC0 cs ++ extOf h'.tsHeader h'.timestamp ++ body c (basicOut 0xC0 cs ++ extOf h'.tsHeader h'.timestamp) (data.drop c) ++ rest)
      (by simp; omega) (by simp at hbl ⊢; omega)
    rw [hleft, if_neg (show ¬ ((data.take c).length = 0 ∨ data.length - c = 0) by simp only [List.length_take]; omega), if_pos (show data.length - c ≠ 0 by omega)] at hk
    rw [drain_part hk]
    have := drain_rest (onMsg := onMsg) (c := c) (cs := cs) (rest := rest)
      (last := update last cs ⟨h'.timestamp, h'.tsDelta, h'.tsHeader, h'.len, data.length - c, h'.mtype, h'.mstream, data.take c⟩)
      (p := ⟨h'.timestamp, h'.tsDelta, h'.tsHeader, h'.len, data.length - c, h'.mtype, h'.mstream, data.take c⟩)
      (data := data.drop c) hc h1 h2 (update_self _ _ _) ht (by simp) (by intro h; have := congrArg List.length h; simp at this; omega) hrest
    simp only at this
    rw [this, update_update, List.take_append_drop]

end Verif.Rtmp
