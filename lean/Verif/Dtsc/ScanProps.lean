import Verif.Dtsc.ScanLemmas

/-!
# Looking things up in the binary form gives what is in the value (C58)

`Views bits buf s v` says that the view `s` points to the binary form of `v` inside the memory `buf` and covers it.
-/
namespace Verif.Dtsc
open Spec Verif.Bit Verif.Json

variable {bits : Dbl → Nat}

/-- C58: a member is found by its name, and a name that is not there gives the invalid view, for every value the form has
room for, wherever it lies in memory. -/
theorem C58_member (v : JVal) (hv : Room v) (buf : Bytes) (s : Scan) (hs : Views bits buf s v) (name : Bytes) (h0 : (0 : UInt8) ∉ name) (n : Nat)
    (hn : (pack bits v).length < n) : ∃ t, getMember n buf s name = .ok t ∧ ViewsOpt bits buf t (member v name) := by
  obtain ⟨p, len, rest, rfl, h, hl⟩ := hs
  obtain ⟨b, t, hp, ht⟩ := type_view (len := len) h
  rw [getMember, ht]
  simp only [R.bind]
  cases v with
  | obj l =>
    rw [pack] at *
    simp only [List.length_cons, List.length_append, List.length_nil, List.cons_append, List.append_assoc, List.nil_append] at h hl hn
    have hb := (List.cons.inj hp).1
    rw [← hb, if_neg (by decide)]
    rw [Room] at hv
    exact member_loop l hv buf name h0 p len n (p + 1) rest (drop_one' h) (by omega) (by omega) (by omega)
  | dbl d => rw [Room] at hv; exact hv.elim
  | _ =>
    refine ⟨none, ?_, rfl⟩
    rw [pack] at hp
    rw [← (List.cons.inj hp).1, if_pos (by decide)]

/-- C58: the number of elements or members. -/
theorem C58_size (v : JVal) (hv : Room v) (buf : Bytes) (s : Scan) (hs : Views bits buf s v) (n : Nat)
    (hn : (pack bits v).length < n) : getSize n buf s = .ok (size v) := by
  obtain ⟨p, len, rest, rfl, h, hl⟩ := hs
  obtain ⟨b, t, hp, ht⟩ := type_view (len := len) h
  rw [getSize, ht]
  simp only [R.bind]
  cases v with
  | obj l =>
    rw [pack] at *
    simp only [List.length_cons, List.length_append, List.length_nil, List.cons_append, List.append_assoc, List.nil_append] at h hl hn
    have hb := (List.cons.inj hp).1
    rw [← hb, if_neg (by decide), if_pos (by decide)]
    rw [Room] at hv
    rw [size_members l hv buf p len n (p + 1) 0 rest (drop_one' h) (by omega) (by omega), Nat.zero_add, size]
  | arr l =>
    rw [pack] at *
    simp only [List.length_cons, List.length_append, List.length_nil, List.cons_append, List.append_assoc, List.nil_append] at h hl hn
    have hb := (List.cons.inj hp).1
    rw [← hb, if_pos (by decide)]
    rw [Room] at hv
    rw [size_elems l hv buf p len n (p + 1) 0 rest (drop_one' h) (by omega) (by omega), Nat.zero_add, size]
  | dbl d => rw [Room] at hv; exact hv.elim
  | _ =>
    rw [pack] at hp
    rw [← (List.cons.inj hp).1, if_neg (by decide), if_neg (by decide)]
    rfl

/-- C58: the element or member at a place, with its name; places behind the last one give the invalid view. -/
theorem C58_place (v : JVal) (hv : Room v) (buf : Bytes) (s : Scan) (hs : Views bits buf s v) (i n : Nat)
    (hn : (pack bits v).length < n) : ∃ t, getIndice n buf s i = .ok t ∧ ViewsAt bits buf t (nth v i) := by
  obtain ⟨p, len, rest, rfl, h, hl⟩ := hs
  obtain ⟨b, t, hp, ht⟩ := type_view (len := len) h
  rw [getIndice, ht]
  simp only [R.bind]
  cases v with
  | obj l =>
    rw [pack] at *
    simp only [List.length_cons, List.length_append, List.length_nil, List.cons_append, List.append_assoc, List.nil_append] at h hl hn
    have hb := (List.cons.inj hp).1
    rw [← hb, if_neg (by decide), if_pos (by decide)]
    rw [Room] at hv
    exact index_members l hv buf p len n (p + 1) i rest (drop_one' h) (by omega) (by omega) (by omega)
  | arr l =>
    rw [pack] at *
    simp only [List.length_cons, List.length_append, List.length_nil, List.cons_append, List.append_assoc, List.nil_append] at h hl hn
    have hb := (List.cons.inj hp).1
    rw [← hb, if_pos (by decide)]
    rw [Room] at hv
    exact index_elems l hv buf p len n (p + 1) i rest (drop_one' h) (by omega) (by omega) (by omega)
  | dbl d => rw [Room] at hv; exact hv.elim
  | _ =>
    refine ⟨none, ?_, rfl⟩
    rw [pack] at hp
    rw [← (List.cons.inj hp).1, if_neg (by decide), if_neg (by decide)]

/-- C58: integers and booleans are read as the 64-bit number they are. -/
theorem C58_int (i : Int) (h1 : -(2 ^ 63) ≤ i) (h2 : i < 2 ^ 63) (buf : Bytes) (s : Scan) (hs : Views bits buf s (.int i)) :
    ∃ u, asInt buf s = .ok u ∧ toI64 u = i := by
  obtain ⟨p, len, rest, rfl, h, hl⟩ := hs
  rw [pack] at h
  rw [asInt, getType, get_drop h]
  simp only [R.of, R.bind]
  rw [if_pos trivial, load_be .ll rfl (toU64 i) (drop_one' h), show (256 : Nat) ^ Codec.ll.width = 2 ^ 64 by decide]
  exact ⟨_, rfl, toI64_toU64 i h1 h2⟩

/-- C58: strings are read as they are, whatever bytes are in them. -/
theorem C58_string (x : Bytes) (hx : x.length < 2 ^ 32) (buf : Bytes) (s : Scan) (hs : Views bits buf s (.str x)) :
    getString buf s = .ok (some x) := by
  obtain ⟨p, len, rest, rfl, h, hl⟩ := hs
  rw [pack] at h
  simp only [List.cons_append, List.append_assoc] at h
  have d1 := drop_one' h
  have d2 := drop_add d1
  rw [htob_length] at d2
  have hl2 := congrArg List.length h
  simp only [List.length_drop, List.length_append, List.length_cons, htob_length] at hl2
  rw [getString, getType, get_drop h]
  simp only [R.of, R.bind]
  rw [if_pos trivial, load_be .l rfl x.length d1, show x.length % 256 ^ Codec.l.width = x.length from Nat.mod_eq_of_lt hx]
  dsimp only
  rw [show p + 5 = p + 1 + Codec.l.width from rfl, sub_eq d2 (by simp only [Codec.width] at *; omega)]

/-- One step through views, with `getMember` or `getIndice`. -/
def scanStep (n : Nat) (buf : Bytes) (s : Scan) : Step → R Scan
  | .name k => getMember n buf s k
  | .place i => (getIndice n buf s i).bind fun t => .ok (t.map (·.2))

/-- Several steps. -/
def scanFollow (n : Nat) (buf : Bytes) (s : Scan) : List Step → R Scan
  | [] => .ok s
  | x :: r => (scanStep n buf s x).bind fun t => scanFollow n buf t r

theorem room_lookup (l : List (Bytes × JVal)) (hl : RoomMembers l) (name : Bytes) (v : JVal) (h : l.lookup name = some v) :
    Room v ∧ (pack bits v).length < (packMembers bits l).length := by
  induction l with
  | nil => cases h
  | cons m l ih =>
    rw [RoomMembers] at hl
    rw [pack_members_cons m l hl.1.1]
    simp only [List.length_append, show (keyLen m.1).length = 2 from rfl]
    rw [List.lookup_cons] at h
    split at h
    · cases h
      exact ⟨hl.2.1, by omega⟩
    · have := ih hl.2.2 h
      exact ⟨this.1, by omega⟩

theorem room_nth (l : List (Bytes × JVal)) (hl : RoomMembers l) (i : Nat) (m : Bytes × JVal) (h : l[i]? = some m) :
    Room m.2 ∧ (pack bits m.2).length < (packMembers bits l).length := by
  induction l generalizing i with
  | nil => cases h
  | cons a l ih =>
    rw [RoomMembers] at hl
    rw [pack_members_cons a l hl.1.1]
    simp only [List.length_append, show (keyLen a.1).length = 2 from rfl]
    cases i with
    | zero => cases h; exact ⟨hl.2.1, by omega⟩
    | succ i =>
      have := ih hl.2.2 i (by simpa using h)
      exact ⟨this.1, by omega⟩

theorem room_elem (l : List JVal) (hl : RoomElems l) (i : Nat) (v : JVal) (h : l[i]? = some v) :
    Room v ∧ (pack bits v).length ≤ (packElems bits l).length := by
  induction l generalizing i with
  | nil => cases h
  | cons a l ih =>
    rw [RoomElems] at hl
    rw [packElems, List.length_append]
    cases i with
    | zero => cases h; exact ⟨hl.1, by omega⟩
    | succ i =>
      have := ih hl.2 i (by simpa using h)
      exact ⟨this.1, by omega⟩

theorem room_step (v w : JVal) (hv : Room v) (x : Step) (h : step v x = some w) :
    Room w ∧ (pack bits w).length ≤ (pack bits v).length := by
  cases v with
  | obj l =>
    rw [Room] at hv
    rw [pack]
    simp only [List.length_cons, List.length_append, List.length_nil]
    cases x with
    | name k =>
      have := room_lookup (bits := bits) l hv k w h
      exact ⟨this.1, by omega⟩
    | place i =>
      simp only [step, nth, Option.map_eq_some_iff] at h
      obtain ⟨m, hm, rfl⟩ := h
      have := room_nth (bits := bits) l hv i m hm
      exact ⟨this.1, by omega⟩
  | arr l =>
    rw [Room] at hv
    rw [pack]
    simp only [List.length_cons, List.length_append, List.length_nil]
    cases x with
    | name k => cases h
    | place i =>
      simp only [step, nth, Option.map_map, Option.map_eq_some_iff] at h
      obtain ⟨m, hm, rfl⟩ := h
      have := room_elem (bits := bits) l hv i m hm
      exact ⟨this.1, by simpa using Nat.le_of_lt (by omega : _ < _)⟩
  | _ => cases x <;> cases h

theorem follow_none (n : Nat) (buf : Bytes) (l : List Step) : scanFollow n buf none l = .ok none := by
  induction l with
  | nil => rfl
  | cons x r ih => cases x <;> exact ih

/-- C58: any number of lookups, one inside the result of the other, by name or by place, ends at the part of the value
that the same steps lead to; if the value has no such part, the result is the invalid view. -/
theorem C58_follow (v : JVal) (hv : Room v) (buf : Bytes) (s : Scan) (hs : Views bits buf s v) (l : List Step) (hl : PlainSteps l) (n : Nat)
    (hn : (pack bits v).length < n) : ∃ t, scanFollow n buf s l = .ok t ∧ ViewsOpt bits buf t (follow v l) := by
  induction l generalizing v s with
  | nil => exact ⟨s, rfl, hs⟩
  | cons x r ih =>
    have hr : PlainSteps r := fun y hy => hl y (by simp [hy])
    have key : ∃ t, scanStep n buf s x = .ok t ∧ ViewsOpt bits buf t (step v x) := by
      cases x with
      | name k => exact C58_member v hv buf s hs k (hl _ (by simp) k rfl) n hn
      | place i =>
        obtain ⟨t, ht, hw⟩ := C58_place v hv buf s hs i n hn
        refine ⟨t.map (·.2), by rw [scanStep, ht]; rfl, ?_⟩
        rw [step]
        match hnth : nth v i, hw with
        | none, hw => rw [show t = none from hw]; rfl
        | some m, hw =>
          obtain ⟨q, rfl, hq⟩ := hw
          exact hq
    obtain ⟨t, ht, hw⟩ := key
    rw [scanFollow, ht, follow]
    match hstep : step v x, hw with
    | none, hw =>
      rw [show t = none from hw]
      exact ⟨none, follow_none n buf r, rfl⟩
    | some w, hw =>
      have hrm := room_step (bits := bits) v w hv x hstep
      exact ih w hrm.1 t hw hr (by omega)

/-- {"a": 5, "list": ["x", {"b": -1}], "s": "hi"}, as used below. -/
def sampleVal : JVal := .obj [([97], .int 5), ([108, 105, 115, 116], .arr [.str [120], .obj [([98], .int (-1))]]), ([115], .str [104, 105])]

/-- Non-vacuity: looking up list[1].b. -/
example : Room sampleVal ∧ follow sampleVal [.name [108, 105, 115, 116], .place 1, .name [98]] = some (.int (-1)) ∧
    Views (fun _ => 0) ([1, 2, 3] ++ pack (fun _ => 0) sampleVal ++ [9]) (some (3, 60)) sampleVal := by
  refine ⟨by simp [sampleVal, Room, RoomElems, RoomMembers], rfl, 3, 60, [9], rfl, rfl, by decide +kernel⟩

/-- C58, disagreement: the length of the view of a member is too large by the length of the name, so that it reaches beyond
the end of the memory it was taken from. Here the object {"abc": "x"} is all the memory there is: 15 bytes; the view of
its member begins at position 6 and claims 12 bytes. -/
theorem C58_view_length_fails : ∃ v : JVal, ∃ p len, getMember 20 (pack bits v) (some (0, (pack bits v).length)) [97, 98, 99] = .ok (some (p, len)) ∧
    p + len > (pack bits v).length :=
  ⟨.obj [([97, 98, 99], .str [120])], 6, 12, rfl, by show 6 + 12 > 15; decide⟩

/-- C58, disagreement: a double is one byte longer than readers take it for, so a member behind it is not found. -/
theorem C58_double_fails (d : Dbl) : ∃ l : List (Bytes × JVal), member (.obj ([([97], .dbl d)] ++ l)) [98] = some (.int 7) ∧
    getMember 40 (pack bits (.obj ([([97], .dbl d)] ++ l))) (some (0, (pack bits (.obj ([([97], .dbl d)] ++ l))).length)) [98] = .ok none :=
  ⟨[([98], .int 7)], rfl, by
    simp [pack, packMembers, htob, getMember, getType, memberLoop, skip, R.of, R.bind, load, btoh, sameName, keyLen]⟩

end Verif.Dtsc
