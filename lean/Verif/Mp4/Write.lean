import Verif.Mp4.Lemmas

/-! # The boxes of a fragment as they are written -/
namespace Verif.Mp4
open Verif.Bit Verif.Index

theorem zeros_be (n : Nat) : List.replicate n (0 : UInt8) = beEnc n 0 := by
  induction n with
  | zero => rfl
  | succ n ih => rw [List.replicate_succ, ih, beEnc, Nat.zero_div]; rfl

theorem set32_next (ty p : Bytes) (hty : ty.length = 4) (v i : Nat) (hi : i = p.length) (hs : p.length < 2 ^ 31) :
    setInt32 (box ty p) v i = box ty (p ++ beEnc 4 v) := by
  subst hi
  unfold setInt32
  rw [l_eq]
  exact set_next ty p _ hty (by simp) (by simp; omega)

theorem set32_in (ty a x b : Bytes) (hty : ty.length = 4) (v i : Nat) (hi : i = a.length) (hx : x.length = 4) (hs : (a ++ x ++ b).length < 2 ^ 31) :
    setInt32 (box ty (a ++ x ++ b)) v i = box ty (a ++ beEnc 4 v ++ b) := by
  subst hi
  unfold setInt32
  rw [l_eq]
  exact set_in ty a x b _ hty (by simp [hx]) (by simp) (by omega)

theorem mfhd_eq (seq : Nat) : mfhd seq = box tyMfhd (beEnc 4 0 ++ beEnc 4 seq) := by
  unfold mfhd
  rw [newBox_eq, set32_next _ [] rfl _ 0 (by simp) (by simp), set32_next _ _ rfl _ 4 (by simp) (by simp)]
  rfl

/-- Version and flags. -/
theorem flags_eq (ty : Bytes) (hty : ty.length = 4) (f : Nat) : setFlags (newBox ty) f = box ty (beEnc 1 0 ++ beEnc 3 f) := by
  unfold setFlags setInt24
  rw [newBox_eq, b24_eq, set_end ty [] _ hty 1 (by simp) (by simp) (by simp)]
  rfl

theorem getFlags_eq (ty r : Bytes) (hty : ty.length = 4) (f : Nat) (hf : f < 2 ^ 24) (hr : r.length < 2 ^ 31) :
    getFlags (box ty (beEnc 1 0 ++ beEnc 3 f ++ r)) = f := by
  unfold getFlags
  have := get_in ty (beEnc 1 0) r hty 3 f (by decide) (by simp; omega)
  rw [show (beEnc 1 0).length = 1 from rfl] at this
  rw [this]; exact Nat.mod_eq_of_lt hf

theorem getFlags_eq' (ty : Bytes) (hty : ty.length = 4) (f : Nat) (hf : f < 2 ^ 24) : getFlags (box ty (beEnc 1 0 ++ beEnc 3 f)) = f := by
  simpa using getFlags_eq ty [] hty f hf (by simp)

theorem headerTfhd_eq (t : Track) (c : Setting) :
    headerTfhd t c = box tyTfhd (beEnc 4 0x020022 ++ beEnc 4 (c.track + 1) ++ beEnc 4 1 ++ beEnc 4 (if t.video then 0x01010000 else 0x02000000)) := by
  unfold headerTfhd
  dsimp only
  rw [flags_eq _ rfl, show (0x20 ||| 0x20000 ||| 0x2 : Nat) = 0x20022 by decide]
  unfold tfhdSetTrack
  rw [set32_next _ _ rfl _ 4 (by simp) (by simp)]
  have hf : getFlags (box tyTfhd (beEnc 1 0 ++ beEnc 3 0x20022 ++ beEnc 4 (c.track + 1))) = 0x20022 :=
    getFlags_eq _ _ rfl _ (by decide) (by simp)
  unfold tfhdSetDuration
  rw [hf, if_neg (by decide)]
  unfold tfhdSetSize
  rw [hf, if_neg (by decide)]
  unfold tfhdSetSampleFlags
  rw [hf, if_pos (by decide)]
  rw [show tfhdPlace 0x20022 [2, 8, 0x10] = 12 by decide]
  unfold setInt32
  rw [l_eq, set_end _ _ _ rfl 12 (by simp) (by simp) (by simp)]
  unfold tfhdSetDescription
  have hf2 : ∀ r, r.length < 100 → getFlags (box tyTfhd (beEnc 1 0 ++ beEnc 3 0x20022 ++ beEnc 4 (c.track + 1) ++ r)) = 0x20022 := fun r hr => by
    rw [List.append_assoc]; exact getFlags_eq _ _ rfl _ (by decide) (by simp; omega)
  rw [List.append_assoc, hf2 _ (by simp), if_pos (by decide), show tfhdPlace 0x20022 [] = 8 by decide, ← List.append_assoc]
  rw [set32_in tyTfhd (beEnc 1 0 ++ beEnc 3 0x20022 ++ beEnc 4 (c.track + 1)) _ _ rfl 1 8 (by simp) (by simp) (by simp)]
  cases t.video <;> rfl

theorem headerTfdt_eq (t : Track) (c : Setting) (s : Nat) :
    headerTfdt t c s = box tyTfdt (beEnc 4 0x01000000 ++ beEnc 8 (if c.vod then sub64 s t.firstms else (s + c.shift) % 2 ^ 64)) := by
  unfold headerTfdt
  generalize (if c.vod = true then sub64 s t.firstms else (s + c.shift) % 2 ^ 64) = v
  have ht : tfdt = box tyTfdt (beEnc 1 1 ++ beEnc 3 0 ++ beEnc 8 0) := by decide +kernel
  rw [ht]
  unfold tfdtSetBase
  have : getInt (box tyTfdt (beEnc 1 1 ++ beEnc 3 0 ++ beEnc 8 0)) 1 0 = 1 := by decide +kernel
  rw [if_pos this]
  unfold setInt64
  rw [ll_eq]
  have := set_in tyTfdt (beEnc 1 1 ++ beEnc 3 0) (beEnc 8 0) [] (beEnc 8 v) rfl (by simp) (by simp) (by simp)
  rw [List.append_nil, List.append_nil] at this
  exact this

/-! ## The run -/

/-- A sample as a row. -/
def Sample.row (s : Sample) : Row := ⟨s.dur, s.size, s.off⟩

theorem rows_length (l : List Row) : (l.flatMap Row.bytes).length = 12 * l.length := by
  induction l with
  | nil => rfl
  | cons r l ih => rw [List.flatMap_cons, List.length_append, ih]; simp [Row.bytes]; omega

/-- The run box with some samples. -/
def runBox (data first : Nat) (l : List Row) : Bytes :=
  box tyTrun (beEnc 1 0 ++ beEnc 3 0xB05 ++ beEnc 4 l.length ++ beEnc 4 data ++ beEnc 4 first ++ l.flatMap Row.bytes)

theorem run_sample (data first : Nat) (l : List Row) (s : Sample) (hl : l.length < 2 ^ 27) :
    trunSetSample (runBox data first l) s l.length = runBox data first (l ++ [s.row]) := by
  have hlen := rows_length l
  unfold trunSetSample runBox
  generalize hX : l.flatMap Row.bytes = X at *
  have hf : ∀ r : Bytes, r.length < 2 ^ 31 → getFlags (box tyTrun (beEnc 1 0 ++ beEnc 3 0xB05 ++ r)) = 0xB05 := fun r hr =>
    getFlags_eq _ _ rfl _ (by decide) hr
  have e : ∀ a b c d e f : Bytes, a ++ b ++ c ++ d ++ e ++ f = a ++ b ++ (c ++ d ++ e ++ f) := by intros; simp
  rw [e, hf _ (by simp; omega)]
  dsimp only
  rw [show has 0xB05 0x100 = true by decide, show has 0xB05 0x200 = true by decide, show has 0xB05 0x400 = false by decide,
    show has 0xB05 0x800 = true by decide, show trunStart 0xB05 = 16 by decide, show trunRowSize 0xB05 = 12 by decide]
  simp only [if_true, Bool.false_eq_true, if_false, Nat.add_zero]
  rw [set32_next _ _ rfl _ _ (by simp; omega) (by simp; omega), set32_next _ _ rfl _ _ (by simp; omega) (by simp; omega),
    set32_next _ _ rfl _ _ (by simp; omega) (by simp; omega)]
  have hc : ∀ r : Bytes, r.length < 2 ^ 31 → trunCount (box tyTrun ((beEnc 1 0 ++ beEnc 3 0xB05) ++ beEnc 4 l.length ++ r)) = l.length := fun r hr => by
    unfold trunCount
    have := get_in tyTrun (beEnc 1 0 ++ beEnc 3 0xB05) r rfl 4 l.length (by decide) (by simp; omega)
    rw [show (beEnc 1 0 ++ beEnc 3 0xB05).length = 4 from rfl] at this
    rw [this]; exact Nat.mod_eq_of_lt (by omega)
  have e2 : beEnc 1 0 ++ beEnc 3 0xB05 ++ (beEnc 4 l.length ++ beEnc 4 data ++ beEnc 4 first ++ X) ++ beEnc 4 s.dur ++ beEnc 4 s.size ++ beEnc 4 s.off =
      (beEnc 1 0 ++ beEnc 3 0xB05) ++ beEnc 4 l.length ++ (beEnc 4 data ++ beEnc 4 first ++ X ++ beEnc 4 s.dur ++ beEnc 4 s.size ++ beEnc 4 s.off) := by simp
  rw [e2, hc _ (by simp; omega), if_pos (by omega), set32_in tyTrun (beEnc 1 0 ++ beEnc 3 0xB05) _ _ rfl _ 4 rfl (by simp) (by simp; omega)]
  rw [List.flatMap_append, hX]
  simp [Sample.row, Row.bytes]

theorem run_samples (data first : Nat) (l : List Row) (ss : List Sample) (hl : l.length + ss.length < 2 ^ 27) :
    setSamples (runBox data first l) l.length ss = runBox data first (l ++ ss.map Sample.row) := by
  induction ss generalizing l with
  | nil => simp [setSamples]
  | cons s r ih =>
    rw [List.length_cons] at hl
    unfold setSamples
    rw [run_sample _ _ _ _ (by omega)]
    have := ih (l ++ [s.row]) (by simp; omega)
    rw [List.length_append] at this
    simpa using this

theorem headerTrun_eq (t : Track) (s f : Nat) (hl : (samplesOf t f (order t s f)).length < 2 ^ 27) :
    headerTrun t s f = runBox (((order t s f).head?.map SortPart.pos).getD 0) 0x02000000 ((samplesOf t f (order t s f)).map Sample.row) := by
  unfold headerTrun
  dsimp only
  rw [flags_eq _ rfl, show (0x1 ||| 0x4 ||| 0x200 ||| 0x100 ||| 0x800 : Nat) = 0xB05 by decide, show (0x02000000 ||| 0 : Nat) = 0x02000000 by decide]
  generalize ((order t s f).head?.map SortPart.pos).getD 0 = D at *
  unfold trunSetDataOffset
  rw [getFlags_eq' _ rfl _ (by decide), if_pos (by decide)]
  unfold setInt32
  rw [l_eq, set_end _ _ _ rfl 8 (by simp) (by simp) (by simp)]
  unfold trunSetFirstFlags
  rw [List.append_assoc, getFlags_eq _ _ rfl _ (by decide) (by simp), if_pos (by decide), if_pos (by decide), ← List.append_assoc]
  rw [set32_next _ _ rfl _ _ (by simp) (by simp)]
  have := run_samples D 0x02000000 [] (samplesOf t f (order t s f)) (by simpa using hl)
  rw [List.nil_append, List.length_nil] at this
  rw [← this]
  rfl

/-! ## The fragment -/

/-- The fragment that `keyHeader` writes. -/
def written (t : Track) (c : Setting) (s f : Nat) : Frag where
  seq := c.seq
  track := c.track + 1
  flags := if t.video then 0x01010000 else 0x02000000
  base := if c.vod then sub64 s t.firstms else (s + c.shift) % 2 ^ 64
  data := ((order t s f).head?.map SortPart.pos).getD 0
  first := 0x02000000
  rows := (samplesOf t f (order t s f)).map Sample.row

theorem is_box {b ty p : Bytes} (h : b = box ty p) (hty : ty.length = 4) (h1 : 0 < p.length) (h2 : p.length < 2 ^ 31) :
    ∃ ty p, b = box ty p ∧ ty.length = 4 ∧ 0 < p.length ∧ 8 + p.length < 2 ^ 32 := ⟨ty, p, h, hty, h1, by omega⟩

theorem keyHeader_eq (t : Track) (c : Setting) (s f : Nat) (hl : (samplesOf t f (order t s f)).length < 2 ^ 27) :
    keyHeader t c s f = (written t c s f).bytes := by
  unfold keyHeader
  dsimp only
  rw [mfhd_eq, headerTfhd_eq, headerTfdt_eq, headerTrun_eq t s f hl, newBox_eq, newBox_eq]
  unfold Frag.bytes written
  dsimp only
  unfold runBox
  have hr := rows_length ((samplesOf t f (order t s f)).map Sample.row)
  rw [List.length_map] at hr
  generalize samplesOf t f (order t s f) = S at *
  generalize ((order t s f).head?.map SortPart.pos).getD 0 = D at *
  generalize (if t.video = true then 0x01010000 else 0x02000000) = fl at *
  generalize (if c.vod = true then sub64 s t.firstms else (s + c.shift) % 2 ^ 64) = ba at *
  generalize hR : (S.map Sample.row).flatMap Row.bytes = R at *
  rw [show beEnc 1 0 ++ beEnc 3 0xB05 = beEnc 4 0xB05 by decide +kernel]
  have b1 : ∃ ty p, box tyTfhd (beEnc 4 0x020022 ++ beEnc 4 (c.track + 1) ++ beEnc 4 1 ++ beEnc 4 fl) = box ty p ∧ ty.length = 4 ∧ 0 < p.length ∧
      8 + p.length < 2 ^ 32 := is_box rfl rfl (by simp) (by simp)
  have b2 : ∃ ty p, box tyTfdt (beEnc 4 0x01000000 ++ beEnc 8 ba) = box ty p ∧ ty.length = 4 ∧ 0 < p.length ∧ 8 + p.length < 2 ^ 32 :=
    is_box rfl rfl (by simp) (by simp)
  have b3 : ∃ ty p, box tyTrun (beEnc 4 0xB05 ++ beEnc 4 (S.map Sample.row).length ++ beEnc 4 D ++ beEnc 4 0x02000000 ++ R) = box ty p ∧ ty.length = 4 ∧
      0 < p.length ∧ 8 + p.length < 2 ^ 32 := is_box rfl rfl (by simp; omega) (by simp; omega)
  have b0 : ∃ ty p, box tyMfhd (beEnc 4 0 ++ beEnc 4 c.seq) = box ty p ∧ ty.length = 4 ∧ 0 < p.length ∧ 8 + p.length < 2 ^ 32 :=
    is_box rfl rfl (by simp) (by simp)
  have l1 : (box tyTfhd (beEnc 4 0x020022 ++ beEnc 4 (c.track + 1) ++ beEnc 4 1 ++ beEnc 4 fl)).length = 24 := by rw [box_length]; simp [tyTfhd]
  have l2 : (box tyTfdt (beEnc 4 0x01000000 ++ beEnc 8 ba)).length = 20 := by rw [box_length]; simp [tyTfdt]
  have l3 : (box tyTrun (beEnc 4 0xB05 ++ beEnc 4 (S.map Sample.row).length ++ beEnc 4 D ++ beEnc 4 0x02000000 ++ R)).length = 24 + 12 * S.length := by
    rw [box_length]; simp [tyTrun]; omega
  have l0 : (box tyMfhd (beEnc 4 0 ++ beEnc 4 c.seq)).length = 16 := by rw [box_length]; simp [tyMfhd]
  generalize box tyTfhd (beEnc 4 0x020022 ++ beEnc 4 (c.track + 1) ++ beEnc 4 1 ++ beEnc 4 fl) = B1 at *
  generalize box tyTfdt (beEnc 4 0x01000000 ++ beEnc 8 ba) = B2 at *
  generalize box tyTrun (beEnc 4 0xB05 ++ beEnc 4 (S.map Sample.row).length ++ beEnc 4 D ++ beEnc 4 0x02000000 ++ R) = B3 at *
  generalize box tyMfhd (beEnc 4 0 ++ beEnc 4 c.seq) = B0 at *
  have s1 := setContent_eq tyTraf rfl [] B1 (by intro x hx; simp at hx; subst hx; exact b1) (by simp [l1])
  have s2 := setContent_eq tyTraf rfl [B1] B2 (by intro x hx; simp at hx; rcases hx with rfl | rfl; exact b1; exact b2) (by simp [l1, l2])
  have s3 := setContent_eq tyTraf rfl [B1, B2] B3 (by intro x hx; simp at hx; rcases hx with rfl | rfl | rfl; exact b1; exact b2; exact b3)
    (by simp [l1, l2, l3]; omega)
  have s4 := setContent_eq tyMoof rfl [] B0 (by intro x hx; simp at hx; subst hx; exact b0) (by simp [l0])
  have s5 := setContent_eq tyMoof rfl [B0] (box tyTraf ([B1, B2] ++ [B3]).flatten) (by
    intro x hx; simp at hx; rcases hx with rfl | rfl; exact b0; exact is_box rfl rfl (by simp; omega) (by simp; omega)) (by
      rw [box_length]; simp [l0, l1, l2, l3, tyTraf]; omega)
  simp only [List.flatten_nil, List.length_nil, List.nil_append, List.length_cons, Nat.zero_add, Nat.reduceAdd, List.cons_append] at s1 s2 s3 s4 s5
  rw [s1, s2, s3, s4, s5]
  simp

theorem bytes_length (f : Frag) : f.bytes.length = 100 + 12 * f.rows.length := by
  unfold Frag.bytes
  have := rows_length f.rows
  simp only [box_length, List.length_append, beEnc_length, this]
  simp [tyMoof, tyMfhd, tyTraf, tyTfhd, tyTfdt, tyTrun]
  omega

end Verif.Mp4
