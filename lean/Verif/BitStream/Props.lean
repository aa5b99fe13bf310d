import Verif.BitStream.Lemmas

/-!
# C09, C10: bit fields and Exp-Golomb codes

The specification is the textbook one: the output is the concatenation of the codes of the
items, most significant bit first, padded with zero bits to whole bytes.
-/
namespace Verif.BitStream
open Verif.Bit

/-! ## Specification -/

/-- What a user of the bit stream writes. -/
inductive Item where
  | field (width value : Nat)
  | ue (value : Nat)
  | se (value : Int)
  deriving DecidableEq

/-- What a user of the bit stream asks to read. -/
inductive Kind where
  | field (width : Nat)
  | ue
  | se
  deriving DecidableEq

def Item.kind : Item → Kind
  | .field w _ => .field w
  | .ue _ => .ue
  | .se _ => .se

/-- The values the coding is specified for. -/
def Item.valid : Item → Prop
  | .field w v => 1 ≤ w ∧ w ≤ 64 ∧ v < 2 ^ w
  | .ue v => v ≤ 2 ^ 33 - 2
  | .se v => -(2 ^ 32) < v ∧ v < 2 ^ 32

/-- ISO/IEC 14496-10 section 9.1: `ue(v)` is `n` zero bits followed by the `n+1` bits of `v+1`. -/
def ueCode (v : Nat) : List Bool :=
  List.replicate ((v + 1).log2) false ++ toBits ((v + 1).log2 + 1) (v + 1)

/-- ISO/IEC 14496-10 section 9.1.1: `se(v)` is `ue` of `2v-1` for positive, `-2v` otherwise. -/
def seIndex (v : Int) : Nat := if 0 < v then (2 * v - 1).toNat else (-2 * v).toNat

def Item.code : Item → List Bool
  | .field w v => toBits w v
  | .ue v => ueCode v
  | .se v => ueCode (seIndex v)

def codes (items : List Item) : List Bool := (items.map Item.code).flatten

/-! ## Driving the code -/

def W.put (w : W) : Item → Option W
  | .field l v => w.append v l
  | .ue v => w.appendUExpGolomb v
  | .se v => w.appendExpGolomb v

def W.putAll (w : W) : List Item → Option W
  | [] => some w
  | i :: l => (w.put i).bind fun w' => w'.putAll l

def R.take (r : R) : Kind → Option (Item × R)
  | .field l => (r.get l).map fun (v, r') => (.field l v, r')
  | .ue => r.getUExpGolomb.map fun (v, r') => (.ue v, r')
  | .se => r.getExpGolomb.map fun (v, r') => (.se v, r')

def R.takeAll (r : R) : List Kind → Option (List Item × R)
  | [] => some ([], r)
  | k :: l => (r.take k).bind fun (i, r') => (r'.takeAll l).map fun (is, r'') => (i :: is, r'')

/-! ## Proofs -/

theorem ueCode_length (v : Nat) : (ueCode v).length = 2 * (v + 1).log2 + 1 := by
  simp [ueCode]; omega

theorem ueCode_eq_toBits (v : Nat) : ueCode v = toBits (2 * (v + 1).log2 + 1) (v + 1) := by
  rw [show 2 * (v + 1).log2 + 1 = (v + 1).log2 + ((v + 1).log2 + 1) by omega, toBits_add, ueCode,
    Nat.div_eq_of_lt Nat.lt_log2_self, toBits_zero]

theorem seIndex_eq (v : Int) : (if v < 0 then (v * -2).toNat else if v > 0 then (v * 2 - 1).toNat else 0) = seIndex v := by
  unfold seIndex; split <;> (try split) <;> omega

theorem log2_le_32 (v : Nat) (h : v ≤ 2 ^ 33 - 2) : (v + 1).log2 ≤ 32 := by
  have : (v + 1).log2 < 33 := (Nat.log2_lt (by omega)).mpr (by omega)
  omega

theorem putUE (w : W) (B : List Bool) (v : Nat) (hw : w.holds B) (hv : v ≤ 2 ^ 33 - 2) :
    ∃ w', w.appendUExpGolomb v = some w' ∧ w'.holds (B ++ ueCode v) := by
  have hl := log2_le_32 v hv
  have hlt : v + 1 < 2 ^ ((v + 1).log2 + 1) := Nat.lt_log2_self
  have := W.append_spec w B (v + 1) (2 * (v + 1).log2 + 1) hw
    (Nat.lt_of_lt_of_le hlt (Nat.pow_le_pow_right (by decide) (by omega))) (by omega) (by omega)
  obtain ⟨w', h1, h2, _⟩ := this
  refine ⟨w', ?_, ?_⟩
  · rw [W.appendUExpGolomb, encodedSize_eq v (by omega), Nat.mod_eq_of_lt (by omega)]; exact h1
  · rw [ueCode_eq_toBits]; exact h2

theorem put_spec (w : W) (B : List Bool) (i : Item) (hw : w.holds B) (hi : i.valid) :
    ∃ w', w.put i = some w' ∧ w'.holds (B ++ i.code) := by
  cases i with
  | field l v =>
    obtain ⟨h1, h2, h3⟩ := hi
    obtain ⟨w', h1, h2, _⟩ := W.append_spec w B v l hw h3 (by omega) (by omega)
    exact ⟨w', h1, h2⟩
  | ue v => exact putUE w B v hw hi
  | se v =>
    obtain ⟨h1, h2⟩ := hi
    simp only [W.put, W.appendExpGolomb, seIndex_eq]
    exact putUE w B _ hw (by unfold seIndex; split <;> omega)

theorem putAll_spec (w : W) (B : List Bool) (items : List Item) (hw : w.holds B) (hi : ∀ i ∈ items, i.valid) :
    ∃ w', w.putAll items = some w' ∧ w'.holds (B ++ codes items) := by
  induction items generalizing w B with
  | nil => exact ⟨w, rfl, by simpa [codes] using hw⟩
  | cons i l ih =>
    obtain ⟨w1, h1, h2⟩ := put_spec w B i hw (hi i (by simp))
    obtain ⟨w2, h3, h4⟩ := ih w1 _ h2 (fun j hj => hi j (by simp [hj]))
    refine ⟨w2, ?_, ?_⟩
    · rw [W.putAll, h1]; exact h3
    · simpa [codes, List.append_assoc] using h4

theorem golomb_spec (r : R) (hok : r.ok) (v : Nat) (t : List Bool) (hv : v ≤ 2 ^ 33 - 2) (hb : r.bits = ueCode v ++ t) :
    r.golombGetter = some (v + 1, r.skip (ueCode v).length) := by
  have hl := log2_le_32 v hv
  have hlow : 2 ^ (v + 1).log2 ≤ v + 1 := (Nat.le_log2 (by omega)).mp (Nat.le_refl _)
  have hhigh : v + 1 < 2 ^ ((v + 1).log2 + 1) := Nat.lt_log2_self
  generalize hn : (v + 1).log2 = n at *
  have hbit : (v + 1) / 2 ^ n % 2 = 1 := by
    have : (v + 1) / 2 ^ n = 1 := by
      apply Nat.div_eq_of_lt_le <;> rw [Nat.pow_succ] at hhigh <;> omega
    rw [this]
  have he : toBits (n + 1) (v + 1) = true :: toBits n (v + 1) := by
    simp [toBits, hbit]
  have hb' : r.bits = List.replicate n false ++ true :: (toBits n (v + 1) ++ t) := by
    rw [hb, ueCode, hn, he]; simp
  rw [R.golombGetter, golombLoop_spec r hok n 0 _ (by omega) (by omega) hb' (by simp), ueCode_length, hn]
  refine congrArg some (Prod.ext ?_ rfl)
  rw [List.take_append_of_le_length (by simp), List.take_of_length_le (by simp), ← he, ofBits_toBits, Nat.mod_eq_of_lt hhigh,
    Nat.mod_eq_of_lt (by omega)]

theorem se_decode (v : Int) (h1 : -(2 ^ 32) < v) (h2 : v < 2 ^ 32) :
    toSigned (((seIndex v + 1) >>> 1) * ((1 + 2 ^ 64 - (((seIndex v + 1) &&& 1) <<< 1)) % 2 ^ 64)) = v := by
  rw [shr, shl, show ∀ x : Nat, x &&& 1 = x % 2 from fun x => and_mask 1 x]
  unfold seIndex
  by_cases h : 0 < v
  · rw [if_pos h]
    obtain ⟨n, rfl⟩ : ∃ n : Nat, v = n := ⟨v.toNat, by omega⟩
    have e : ((2 * (n : Int) - 1).toNat + 1) = 2 * n := by omega
    rw [e, show 2 * n % 2 = 0 by omega, show 2 * n / 2 ^ 1 = n by omega]
    unfold toSigned
    rw [show (1 + 2 ^ 64 - 0 * 2 ^ 1) % 2 ^ 64 = 1 from rfl, Nat.mul_one]
    split <;> omega
  · rw [if_neg h]
    obtain ⟨n, rfl⟩ : ∃ n : Nat, v = -n := ⟨(-v).toNat, by omega⟩
    have e : ((-2 * (-(n : Int))).toNat + 1) = 2 * n + 1 := by omega
    rw [e, show (2 * n + 1) % 2 = 1 by omega, show (2 * n + 1) / 2 ^ 1 = n by omega]
    unfold toSigned
    rw [show (1 + 2 ^ 64 - 1 * 2 ^ 1) % 2 ^ 64 = 2 ^ 64 - 1 from rfl]
    split <;> omega

theorem take_spec (r : R) (hok : r.ok) (i : Item) (hi : i.valid) (t : List Bool) (hb : r.bits = i.code ++ t) :
    ∃ r', r.take i.kind = some (i, r') ∧ r'.ok ∧ r'.bits = t ∧ r'.data = r.data := by
  have hskip : ∀ n, (r.skip n).data = r.data := by intro n; unfold R.skip; split <;> rfl
  refine ⟨r.skip i.code.length, ?_, R.skip_ok _ _ hok, ?_, hskip _⟩
  · cases i with
    | field l v =>
      obtain ⟨h1, h2, h3⟩ := hi
      simp only [Item.kind, Item.code, R.take] at hb ⊢
      rw [R.get_eq r l (by rw [hb]; simp) hok, hb, List.take_append_of_le_length (by simp),
        List.take_of_length_le (by simp), ofBits_toBits, Nat.mod_eq_of_lt h3, Nat.mod_eq_of_lt]
      · simp
      · exact Nat.lt_of_lt_of_le h3 (Nat.pow_le_pow_right (by decide) h2)
    | ue v =>
      simp only [Item.kind, Item.code, R.take, R.getUExpGolomb, Item.valid] at hb hi ⊢
      rw [golomb_spec r hok v t hi hb]
      simp; omega
    | se v =>
      obtain ⟨h1, h2⟩ := hi
      simp only [Item.kind, Item.code, R.take, R.getExpGolomb] at hb ⊢
      rw [golomb_spec r hok _ t (by unfold seIndex; split <;> omega) hb]
      simp only [Option.map_some]
      rw [se_decode v h1 h2]
  · rw [R.skip_bits _ _ (by rw [hb]; simp), hb]; simp

theorem takeAll_spec (r : R) (hok : r.ok) (items : List Item) (hi : ∀ i ∈ items, i.valid) (t : List Bool)
    (hb : r.bits = codes items ++ t) :
    ∃ r', r.takeAll (items.map Item.kind) = some (items, r') ∧ r'.bits = t ∧ r'.ok := by
  induction items generalizing r with
  | nil => exact ⟨r, rfl, by simpa [codes] using hb, hok⟩
  | cons i l ih =>
    obtain ⟨r1, h1, h2, h3, _⟩ := take_spec r hok i (hi i (by simp)) (codes l ++ t) (by rw [hb]; simp [codes])
    obtain ⟨r2, h4, h5, h6⟩ := ih r1 h2 (fun j hj => hi j (by simp [hj])) h3
    refine ⟨r2, ?_, h5, h6⟩
    simp only [List.map_cons, R.takeAll, h1, Option.bind_some, h4, Option.map_some]

/-! ## Property theorems -/

/-- C09 (layout). Whatever valid items are written to a fresh writer, the writer never runs into
undefined behaviour and the bytes it holds are the concatenated codes, padded with fewer than 8 zero
bits; their number is the total bit count rounded up. -/
theorem C09_layout (items : List Item) (hi : ∀ i ∈ items, i.valid) :
    ∃ w, W.init.putAll items = some w ∧ w.bitSize = (codes items).length ∧
      w.str.length = ((codes items).length + 7) / 8 ∧
      ∃ pad < 8, bytesBits w.str = codes items ++ List.replicate pad false := by
  obtain ⟨w, h1, h2⟩ := putAll_spec W.init [] items W.init_holds hi
  rw [List.nil_append] at h2
  have := W.str_bits w _ h2
  exact ⟨w, h1, h2.1.symm, this⟩

/-- C09. Any sequence of fields of widths 1 to 64, with values that fit, comes back unchanged and
in order when the produced bytes (and any bytes after them) are read with the same widths. -/
theorem C09_fields_roundtrip (fields : List (Nat × Nat))
    (hf : ∀ f ∈ fields, 1 ≤ f.1 ∧ f.1 ≤ 64 ∧ f.2 < 2 ^ f.1) (trailing : Bytes) :
    ∃ w r, W.init.putAll (fields.map fun f => .field f.1 f.2) = some w ∧
      w.str.length = ((fields.map Prod.fst).sum + 7) / 8 ∧
      (R.mk (w.str ++ trailing) 0).takeAll (fields.map fun f => .field f.1) =
        some (fields.map fun f => .field f.1 f.2, r) ∧ r.offset = (fields.map Prod.fst).sum := by
  have hv : ∀ i ∈ fields.map (fun f => Item.field f.1 f.2), i.valid := by
    intro i hi
    obtain ⟨f, hf1, rfl⟩ := List.mem_map.mp hi
    exact hf f hf1
  have hlen : (codes (fields.map fun f => Item.field f.1 f.2)).length = (fields.map Prod.fst).sum := by
    simp [codes, List.length_flatten, Function.comp_def, Item.code]
  obtain ⟨w, h1, h2, h3, pad, _, h4⟩ := C09_layout _ hv
  have hb : (R.mk (w.str ++ trailing) 0).bits =
      codes (fields.map fun f => Item.field f.1 f.2) ++ (List.replicate pad false ++ bytesBits trailing) := by
    simp [R.bits, bytesBits_append, h4]
  obtain ⟨r, h5, h6, h7⟩ := takeAll_spec _ (by simp [R.ok]) _ hv _ hb
  refine ⟨w, r, h1, by rw [h3, hlen], ?_, ?_⟩
  · rw [← h5]; simp [Function.comp_def, Item.kind]
  · have hdata : ∀ (ks : List Kind) (q q' : R) is, q.takeAll ks = some (is, q') → (∀ k ∈ ks, ∃ l, k = .field l) → q'.data = q.data := by
      intro ks
      induction ks with
      | nil => intro q q' is h _; simp [R.takeAll] at h; rw [h.2]
      | cons k ks ih =>
        intro q q' is h hk
        obtain ⟨l, rfl⟩ := hk k (by simp)
        simp only [R.takeAll, R.take] at h
        cases hg : q.get l with
        | none => simp [hg] at h
        | some x =>
          obtain ⟨v, q1⟩ := x
          have hq1 : q1.data = q.data := by
            unfold R.get at hg
            split at hg
            · cases hp : q.peek l with
              | none => simp [hp] at hg
              | some y =>
                simp [hp] at hg
                rw [← hg.2]; unfold R.skip; split <;> rfl
            · simp at hg; rw [hg.2]
          simp only [hg, Option.map_some, Option.bind_some] at h
          cases ht : q1.takeAll ks with
          | none => simp [ht] at h
          | some y =>
            obtain ⟨js, q2⟩ := y
            simp [ht] at h
            rw [← h.2, ← hq1]
            exact ih q1 q2 js ht (fun k hk' => hk k (by simp [hk']))
    have hd := hdata _ _ _ _ h5 (by
      intro k hk
      simp [Item.kind] at hk
      obtain ⟨_, _, _, rfl⟩ := hk
      exact ⟨_, rfl⟩)
    have hl := congrArg List.length h6
    simp only [R.bits, hd] at hl
    have hb' := congrArg List.length hb
    simp only [R.bits, List.length_append, hlen] at hb'
    unfold R.ok at h7
    rw [hd] at h7
    simp at hl hb' h7
    omega

/-- C09. Reading fields one at a time from a reader that is anywhere in a stream returns the next
bits of the stream as a number and moves past exactly those bits. -/
theorem C09_get (r : R) (hok : r.offset ≤ 8 * r.data.length) (n : Nat) (hn : n ≤ 64)
    (hb : n ≤ r.size) :
    r.get n = some (ofBits (((bytesBits r.data).drop r.offset).take n), ⟨r.data, r.offset + n⟩) := by
  have hs : r.skip n = ⟨r.data, r.offset + n⟩ := by rw [R.skip, if_pos hb]
  rw [R.size_eq] at hb
  rw [R.get_eq r n hb hok, Nat.mod_eq_of_lt, hs]
  · rfl
  · have := ofBits_lt (r.bits.take n)
    exact Nat.lt_of_lt_of_le this (Nat.pow_le_pow_right (by decide) (by simp; omega))

theorem drop_bytesBits (d : Bytes) (k : Nat) : bytesBits (d.drop k) = (bytesBits d).drop (8 * k) := by
  induction k generalizing d with
  | zero => simp
  | succ k ih =>
    cases d with
    | nil => simp [bytesBits]
    | cons b r =>
      rw [List.drop_succ_cons, ih, bytesBits, List.drop_append, toBits_length,
        List.drop_of_length_le (l := toBits 8 b.toNat) (by simp; omega)]
      simp [show 8 * (k + 1) - 8 = 8 * k by omega]

/-- C09. Dropping the bytes already read and appending new data at the end changes neither the bits
still to be read nor their order, and afterwards fewer than 8 read bits are kept. -/
theorem C09_flush (r : R) (hok : r.offset ≤ 8 * r.data.length) (more : Bytes) :
    (bytesBits (r.flush.append more).data).drop (r.flush.append more).offset =
      (bytesBits r.data).drop r.offset ++ bytesBits more ∧
    r.flush.offset < 8 ∧ r.flush.size = r.size ∧ r.flush.offset ≤ 8 * r.flush.data.length := by
  have h1 : (bytesBits r.flush.data).drop r.flush.offset = (bytesBits r.data).drop r.offset := by
    simp only [R.flush, drop_bytesBits, List.drop_drop]
    rw [show 8 * (r.offset / 8) + r.offset % 8 = r.offset by omega]
  have h2 : r.flush.offset ≤ 8 * r.flush.data.length := by
    simp only [R.flush, List.length_drop]; omega
  refine ⟨?_, Nat.mod_lt _ (by decide), ?_, h2⟩
  · simp only [R.append, bytesBits_append]
    rw [List.drop_append_of_le_length (by simpa using h2), h1]
  · simp only [R.size, R.flush, List.length_drop]; omega

example : (R.mk [0xab, 0xcd] 12).flush.get 4 = some (0xd, ⟨[0xcd], 8⟩) := by
  rw [C09_get _ (by decide) 4 (by decide) (by decide)]; decide +kernel

/-- C10. Fixed fields, unsigned and signed Exp-Golomb codes in any order and number: writing never
fails and reading with the same kinds returns the same values, whatever bytes follow. -/
theorem C10_roundtrip (items : List Item) (hi : ∀ i ∈ items, i.valid) (trailing : Bytes) :
    ∃ w r, W.init.putAll items = some w ∧
      (R.mk (w.str ++ trailing) 0).takeAll (items.map Item.kind) = some (items, r) := by
  obtain ⟨w, h1, h2, h3, pad, _, h4⟩ := C09_layout _ hi
  have hb : (R.mk (w.str ++ trailing) 0).bits = codes items ++ (List.replicate pad false ++ bytesBits trailing) := by
    simp [R.bits, bytesBits_append, h4]
  obtain ⟨r, h5, _, _⟩ := takeAll_spec _ (by simp [R.ok]) _ hi _ hb
  exact ⟨w, r, h1, h5⟩

/-- C10. Reading an Exp-Golomb code anywhere in any bit stream gives its value and moves past
exactly its bits. -/
theorem C10_read_anywhere (data : Bytes) (off : Nat) (v : Nat) (hv : v ≤ 2 ^ 33 - 2) (pre rest : List Bool)
    (hpre : pre.length = off) (hd : bytesBits data = pre ++ ueCode v ++ rest) :
    (R.mk data off).getUExpGolomb = some (v, ⟨data, off + (2 * (v + 1).log2 + 1)⟩) := by
  have hb : (R.mk data off).bits = ueCode v ++ rest := by
    simp [R.bits, hd, ← hpre]
  have hl := congrArg List.length hd
  simp at hl
  have hok : (R.mk data off).ok := by simp [R.ok]; omega
  rw [R.getUExpGolomb, golomb_spec _ hok v rest hv hb, R.skip, if_pos, ueCode_length]
  · simp; omega
  · rw [R.size_eq, hb]; simp

theorem bitSizeLoop_spec (v n : Nat) (h : 2 ^ n ≤ v + 1) :
    bitSizeLoop v (2 * n + 1) (2 ^ (n + 1)) = 2 * (v + 1).log2 + 1 := by
  have hn : n ≤ (v + 1).log2 := (Nat.le_log2 (by omega)).mpr h
  induction hk : (v + 1).log2 - n generalizing n with
  | zero =>
    have e : n = (v + 1).log2 := by omega
    have : v + 1 < 2 ^ (n + 1) := by rw [e]; exact Nat.lt_log2_self
    rw [bitSizeLoop, dif_neg (by omega), e]
  | succ k ih =>
    have h2 : 2 ^ (n + 1) ≤ v + 1 := (Nat.le_log2 (by omega)).mp (by omega)
    have hpos : 2 ≤ 2 ^ (n + 1) := by rw [Nat.pow_succ]; have := Nat.pow_pos (n := n) (show 0 < 2 by decide); omega
    rw [bitSizeLoop, dif_pos (by omega), show 2 * n + 1 + 2 = 2 * (n + 1) + 1 by omega, ← Nat.pow_succ]
    exact ih (n + 1) h2 (by omega) (by omega)

/-- C10. Both size functions announce exactly the number of bits of the code. -/
theorem C10_announced_size (v : Nat) (h : v + 1 < 2 ^ 63) :
    encodedSize v = (ueCode v).length ∧ bitSizeUExpGolomb v = (ueCode v).length := by
  rw [ueCode_length]
  refine ⟨encodedSize_eq v (by omega), ?_⟩
  have := bitSizeLoop_spec v 0 (by simp)
  simpa [bitSizeUExpGolomb] using this

/-- C10. The writer appends exactly that many bits. -/
theorem C10_bits_used (w w' : W) (v : Nat) (h : w.appendUExpGolomb v = some w') :
    w'.bitSize = w.bitSize + encodedSize v := by
  unfold W.appendUExpGolomb W.append at h
  simp only at h
  split at h
  · exact absurd h (by simp)
  · simp at h; rw [← h]

/-- C10. Codes of two different values never share a prefix: the code is uniquely decodable. -/
theorem C10_prefix_free (v1 v2 : Nat) (t1 t2 : List Bool)
    (h : ueCode v1 ++ t1 = ueCode v2 ++ t2) : v1 = v2 := by
  have key : ∀ (a b m n : Nat) (x y : List Bool), List.replicate m false ++ true :: x = List.replicate n false ++ true :: y → m = n := by
    intro a b m
    induction m with
    | zero => intro n x y h; cases n with
      | zero => rfl
      | succ n => simp [List.replicate_succ] at h
    | succ m ih => intro n x y h; cases n with
      | zero => simp [List.replicate_succ] at h
      | succ n =>
        simp only [List.replicate_succ, List.cons_append, List.cons.injEq, true_and] at h
        rw [ih n x y h]
  have form : ∀ v : Nat, toBits ((v + 1).log2 + 1) (v + 1) = true :: toBits ((v + 1).log2) (v + 1) := by
    intro v
    have hlow : 2 ^ (v + 1).log2 ≤ v + 1 := (Nat.le_log2 (by omega)).mp (Nat.le_refl _)
    have hhigh : v + 1 < 2 ^ ((v + 1).log2 + 1) := Nat.lt_log2_self
    have : (v + 1) / 2 ^ (v + 1).log2 = 1 := by
      apply Nat.div_eq_of_lt_le <;> rw [Nat.pow_succ] at hhigh <;> omega
    simp [toBits, this]
  have hm : (v1 + 1).log2 = (v2 + 1).log2 := by
    have h' := h
    rw [ueCode, ueCode, form, form] at h'
    simp only [List.append_assoc, List.cons_append] at h'
    exact key 0 0 _ _ _ _ h'
  have hlen : (ueCode v1).length = (ueCode v2).length := by rw [ueCode_length, ueCode_length, hm]
  have he := (List.append_inj h hlen).1
  rw [ueCode_eq_toBits, ueCode_eq_toBits, ← hm] at he
  have hv := congrArg ofBits he
  rw [ofBits_toBits, ofBits_toBits, Nat.mod_eq_of_lt, Nat.mod_eq_of_lt] at hv
  · omega
  · rw [hm]; exact Nat.lt_of_lt_of_le Nat.lt_log2_self (Nat.pow_le_pow_right (by decide) (by omega))
  · exact Nat.lt_of_lt_of_le Nat.lt_log2_self (Nat.pow_le_pow_right (by decide) (by omega))

/-! ## Non-vacuity -/

example : (∀ i ∈ [Item.field 3 5, .ue 7, .se (-12), .field 64 (2 ^ 64 - 1), .ue (2 ^ 33 - 2)], i.valid) := by
  simp only [List.mem_cons, List.not_mem_nil, or_false, forall_eq_or_imp, forall_eq, Item.valid]; decide
example : (W.init.putAll [.field 3 5, .ue 7, .se (-12)]).map W.str = some [0xA2, 0x03, 0x20] := by
  simp [W.init, W.putAll, W.put, W.append, W.appendUExpGolomb, W.appendExpGolomb, encodedSize, sizeLoop, scratch,
    W.str]
  decide +kernel
example : ueCode 3 = [false, false, true, false, false] := by decide +kernel
example : (R.mk [0xA2, 0x03, 0x20, 0xFF] 3).getUExpGolomb = some (7, ⟨[0xA2, 0x03, 0x20, 0xFF], 10⟩) :=
  C10_read_anywhere _ 3 7 (by decide) (toBits 3 5) (toBits 22 0x0320FF) rfl (by decide +kernel)

/-- Limit of C10: one more bit and the nine-byte scratch buffer of the writer is overrun. -/
theorem C10_limit : (W.mk [0] 7).appendUExpGolomb (2 ^ 33 - 1) = none := by decide +kernel

end Verif.BitStream
