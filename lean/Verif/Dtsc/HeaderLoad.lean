import Verif.Dtsc.HeaderVal

/-!
# Loading what `send` writes
-/
namespace Verif.Dtsc
open Spec Verif.Bit Verif.Json
open Verif.Index (Tab Part Key Frag)

variable {bits : Dbl → Nat}

/-! ## Members -/

theorem strOf_some {v : JVal} {buf : Bytes} {s : Scan} {n : Nat} (hv : Room v) (hs : Views bits buf s v) (hn : (pack bits v).length < n)
    {name x : Bytes} (h0 : (0 : UInt8) ∉ name) (h : member v name = some (.str x)) (hx : x.length < 2 ^ 32) :
    strOf n buf s name = .ok x := by
  obtain ⟨t, ht, hw⟩ := C58_member v hv buf s hs name h0 n hn
  rw [h] at hw
  rw [strOf, ht, R.bind, asString]
  have hg := C58_string x hx buf t hw
  obtain ⟨p, len, rest, rfl, hd, hl⟩ := hw
  rw [pack] at hd
  have h2 : getType buf (some (p, len)) = .ok 2 := by rw [getType, get_drop hd]; rfl
  rw [h2, R.bind, if_neg (by decide), hg]
  rfl

theorem strOf_none {v : JVal} {buf : Bytes} {s : Scan} {n : Nat} (hv : Room v) (hs : Views bits buf s v) (hn : (pack bits v).length < n)
    {name : Bytes} (h0 : (0 : UInt8) ∉ name) (h : member v name = none) : strOf n buf s name = .ok [] := by
  obtain ⟨t, ht, hw⟩ := C58_member v hv buf s hs name h0 n hn
  rw [h] at hw
  rw [strOf, ht, R.bind, show t = none from hw]
  rfl

theorem intOf_some {v : JVal} {buf : Bytes} {s : Scan} {n : Nat} (hv : Room v) (hs : Views bits buf s v) (hn : (pack bits v).length < n)
    {name : Bytes} {x : Nat} (h0 : (0 : UInt8) ∉ name) (h : member v name = some (num x)) (hx : x < 2 ^ 64) :
    intOf n buf s name = .ok x := by
  obtain ⟨t, ht, hw⟩ := C58_member v hv buf s hs name h0 n hn
  rw [h] at hw
  rw [intOf, ht, R.bind]
  obtain ⟨p, len, rest, rfl, hd, hl⟩ := hw
  rw [pack_num x hx] at hd
  rw [asInt, getType, get_drop hd]
  simp only [R.of, R.bind]
  rw [if_pos trivial, load_be .ll rfl x (drop_one' hd), show (256 : Nat) ^ Codec.ll.width = 2 ^ 64 by decide, Nat.mod_eq_of_lt hx]

theorem intOf_none {v : JVal} {buf : Bytes} {s : Scan} {n : Nat} (hv : Room v) (hs : Views bits buf s v) (hn : (pack bits v).length < n)
    {name : Bytes} (h0 : (0 : UInt8) ∉ name) (h : member v name = none) : intOf n buf s name = .ok 0 := by
  obtain ⟨t, ht, hw⟩ := C58_member v hv buf s hs name h0 n hn
  rw [h] at hw
  rw [intOf, ht, R.bind, show t = none from hw]
  rfl

theorem has_eq {v : JVal} {buf : Bytes} {s : Scan} {n : Nat} (hv : Room v) (hs : Views bits buf s v) (hn : (pack bits v).length < n)
    {name : Bytes} (h0 : (0 : UInt8) ∉ name) : has n buf s name = .ok (member v name).isSome := by
  obtain ⟨t, ht, hw⟩ := C58_member v hv buf s hs name h0 n hn
  rw [has, ht, R.bind]
  cases hm : member v name with
  | none => rw [hm] at hw; rw [show t = none from hw]; rfl
  | some w =>
    rw [hm] at hw
    obtain ⟨p, len, rest, rfl, hd, hl⟩ := hw
    obtain ⟨b, r, hp, hb⟩ := pack_head (bits := bits) w
    rw [hp] at hd
    rw [getType, get_drop hd]
    simp only [R.of, R.bind, Option.isSome_some, R.ok.injEq]
    simpa using hb

theorem getStr_some {v : JVal} {buf : Bytes} {s : Scan} {n : Nat} (hv : Room v) (hs : Views bits buf s v) (hn : (pack bits v).length < n)
    {name x : Bytes} (h0 : (0 : UInt8) ∉ name) (h : member v name = some (.str x)) (hx : x.length < 2 ^ 32) :
    ∃ t, getMember n buf s name = .ok t ∧ getString buf t = .ok (some x) := by
  obtain ⟨t, ht, hw⟩ := C58_member v hv buf s hs name h0 n hn
  rw [h] at hw
  exact ⟨t, ht, C58_string x hx buf t hw⟩

/-! ## Records -/

theorem records_drop (f : Nat → Bytes) (w : Nat) (hf : ∀ i, (f i).length = w) (k i : Nat) (h : i < k) :
    ∃ r, (records f k).drop (i * w) = f i ++ r := by
  induction k with
  | zero => omega
  | succ k ih =>
    have hl := records_length f w hf k
    have he : records f (k + 1) = records f k ++ f k := by
      rw [records, List.range_succ, List.map_append, List.flatten_append, List.map_singleton, List.flatten_singleton]; rfl
    by_cases hi : i < k
    · obtain ⟨r, hr⟩ := ih hi
      have : i * w ≤ k * w := Nat.mul_le_mul_right w (by omega)
      exact ⟨r ++ f k, by rw [he, List.drop_append_of_le_length (by omega), hr, List.append_assoc]⟩
    · have : i = k := by omega
      subst this
      exact ⟨[], by rw [he, ← hl, List.drop_left, List.append_nil]⟩

theorem readAll_ok {α : Type} (f : Nat → R α) (g : Nat → α) (k : Nat) (h : ∀ i, i < k → f i = .ok (g i)) :
    readAll f k = .ok ((List.range k).map g) := by
  induction k with
  | zero => rfl
  | succ k ih =>
    rw [readAll, ih fun i hi => h i (by omega), R.bind, h k (by omega), R.bind, List.range_succ, List.map_append, List.map_singleton]

theorem ld (c : Codec) (hc : c.big = true) {v : Nat} {buf : Bytes} {i : Nat} {r : Bytes} (h : buf.drop i = htob c v ++ r)
    (hv : v < 256 ^ c.width) : load c buf i = some v := by
  rw [load_be c hc v h, Nat.mod_eq_of_lt hv]

/-- A fragment that fits the format. -/
def FragFits (f : Frag) : Prop := f.dur < 2 ^ 32 ∧ f.keys < 256 ∧ f.firstKey + 1 < 2 ^ 32 ∧ f.size < 2 ^ 32
/-- A key that fits the format. -/
def KeyFits (k : Key) : Prop := k.bpos < 2 ^ 64 ∧ k.dur < 2 ^ 24 ∧ k.num < 2 ^ 32 ∧ k.parts < 2 ^ 16 ∧ k.time < 2 ^ 64 ∧ k.size < 2 ^ 32
/-- A packet that fits the format. -/
def PartFits (p : Part) : Prop := p.size < 2 ^ 24 ∧ p.dur < 2 ^ 16 ∧ -(2 ^ 15) ≤ p.off ∧ p.off < 2 ^ 15

theorem frag_in (f : Nat → Frag) (k i : Nat) (h : i < k) (hf : FragFits (f i)) :
    fragIn (records (fun i => fragOut (f i)) k) i = .ok (f i) := by
  obtain ⟨r, hr⟩ := records_drop (fun i => fragOut (f i)) 13 (fun i => fragOut_length _) k i h
  obtain ⟨h1, h2, h3, h4⟩ := hf
  generalize records (fun i => fragOut (f i)) k = b at hr
  simp only [fragOut, List.append_assoc] at hr
  have d1 := drop_add hr
  have d2 := drop_add d1
  have d3 := drop_add d2
  rw [htob_length] at d1 d2 d3
  rw [htob_length] at d3
  have e1 := get_drop (b := UInt8.ofNat (f i).keys) d1
  rw [fragIn, ld .l rfl hr h1, show i * 13 + 4 = i * 13 + Codec.l.width from rfl, e1,
    show i * 13 + 5 = i * 13 + Codec.l.width + [UInt8.ofNat (f i).keys].length from rfl, ld .l rfl d2 h3,
    show i * 13 + 9 = i * 13 + Codec.l.width + [UInt8.ofNat (f i).keys].length + Codec.l.width from rfl, ld .l rfl d3 h4]
  simp only [R.of, R.bind, u8n, Nat.mod_eq_of_lt h2, R.ok.injEq]
  generalize f i = q at *
  obtain ⟨a, b, c, d⟩ := q
  simp only at *
  rw [show (c + 1 + 2 ^ 32 - 1) % 2 ^ 32 = c by omega]

theorem key_in (f : Nat → Key) (bp : Nat → Nat) (k i : Nat) (h : i < k) (hf : KeyFits (f i)) (hb : bp i = (f i).bpos) :
    keyIn (records (fun i => keyOut (bp i) (f i)) k) (records (fun i => htob .l (f i).size) k) i = .ok { f i with firstPart := 0 } := by
  obtain ⟨r, hr⟩ := records_drop (fun i => keyOut (bp i) (f i)) 25 (fun i => keyOut_length _ _) k i h
  obtain ⟨r', hr'⟩ := records_drop (fun i => htob .l (f i).size) 4 (fun i => htob_length .l _) k i h
  obtain ⟨h1, h2, h3, h4, h5, h6⟩ := hf
  generalize records (fun i => keyOut (bp i) (f i)) k = b at hr
  generalize records (fun i => htob .l (f i).size) k = z at hr'
  simp only [keyOut, List.append_assoc] at hr
  rw [hb] at hr
  have d1 := drop_add hr
  have d2 := drop_add d1
  have d3 := drop_add d2
  have d4 := drop_add d3
  simp only [htob_length] at d1 d2 d3 d4
  rw [keyIn, ld .ll rfl hr h1, show i * 25 + 8 = i * 25 + Codec.ll.width from rfl, ld .b24 rfl d1 h2,
    show i * 25 + 11 = i * 25 + Codec.ll.width + Codec.b24.width from rfl, ld .l rfl d2 h3,
    show i * 25 + 15 = i * 25 + Codec.ll.width + Codec.b24.width + Codec.l.width from rfl, ld .s rfl d3 h4,
    show i * 25 + 17 = i * 25 + Codec.ll.width + Codec.b24.width + Codec.l.width + Codec.s.width from rfl, ld .ll rfl d4 h5, ld .l rfl hr' h6]
  rfl

theorem cut_off (o : Int) (h3 : -(2 ^ 15) ≤ o) (h4 : o < 2 ^ 15) : Index.cut16 ((toU64 o % 2 ^ 24 : Nat) : Int) = o := by
  rw [Index.cut16, toU64]
  omega

theorem part_in (f : Nat → Part) (k i : Nat) (h : i < k) (hf : PartFits (f i)) :
    partIn (records (fun i => partOut (f i)) k) i = .ok (f i) := by
  obtain ⟨r, hr⟩ := records_drop (fun i => partOut (f i)) 9 (fun i => partOut_length _) k i h
  obtain ⟨h1, h2, h3, h4⟩ := hf
  generalize records (fun i => partOut (f i)) k = b at hr
  simp only [partOut, List.append_assoc] at hr
  have d1 := drop_add hr
  have d2 := drop_add d1
  simp only [htob_length] at d1 d2
  rw [partIn, ld .b24 rfl hr h1, show i * 9 + 3 = i * 9 + Codec.b24.width from rfl, ld .b24 rfl d1 (Nat.lt_trans h2 (by decide)),
    show i * 9 + 6 = i * 9 + Codec.b24.width + Codec.b24.width from rfl, load_be .b24 rfl _ d2]
  simp only [R.of, R.bind, R.ok.injEq]
  generalize f i = q at *
  obtain ⟨s, d, o⟩ := q
  simp only at *
  rw [Nat.mod_eq_of_lt h2, show (256 : Nat) ^ Codec.b24.width = 2 ^ 24 by decide, cut_off o h3 h4]

end Verif.Dtsc
