import Verif.Json.ParseLemmas

/-!
# JSON text: properties C19 and C20
-/
namespace Verif.Json
open Spec

/-! ## C20: quoted strings -/

/-- C20: the quoted form of any byte string is a quote, then printable ASCII only, in which a strict JSON parser finds the
closing quote exactly where the server wrote it, whatever follows. -/
theorem C20_quoted (s : Bytes) : ∃ body, escape s = 34 :: body ∧ (∀ b ∈ body, 32 ≤ b.toNat ∧ b.toNat ≤ 126) ∧
    ∃ units, ∀ rest, scan (body ++ rest) = some (units, rest) := by
  refine ⟨esc s ++ [34], by simp [escape, esc], ?_, ?_⟩
  · intro b hb
    rcases List.mem_append.mp hb with h | h
    · exact esc_ascii s b h
    · simp only [List.mem_cons, List.not_mem_nil, or_false] at h
      subst h
      decide
  · obtain ⟨u, hu⟩ := scan_esc s
    exact ⟨u, fun rest => by rw [List.append_assoc]; exact hu rest⟩

/-- C20: and for UTF-8 text the peer reads exactly the UTF-16 units of its characters. -/
theorem C20_decoded (cs : List Char) (rest : Bytes) :
    ∃ body, escape (text cs) = 34 :: body ∧ scan (body ++ rest) = some (cs.flatMap Spec.utf16, rest) :=
  ⟨esc (text cs) ++ [34], by simp [escape, esc], by rw [List.append_assoc]; exact scan_text cs rest⟩

/-- A quote, a line end, a stray byte and a euro sign: `"\"\nÿ€` as bytes, the last one as UTF-8. -/
example : escape [34, 10, 255, 0xE2, 0x82, 0xAC] =
    [34, 92, 34, 92, 110, 92, 117, 48, 48, 70, 70, 92, 117, 50, 48, 65, 67, 34] := by decide +kernel

/-- The strict reader refuses a raw line end, an unknown escape and an incomplete unit. -/
example : scan [10, 34] = none ∧ scan [92, 97, 34] = none ∧ scan [92, 117, 48, 48, 34] = none ∧ scan [0xC3, 0xA9, 34] = none := by
  decide +kernel

/-- An emoji is two units. -/
example : ['a', '😀'].flatMap Spec.utf16 = [97, 0xD83D, 0xDE00] := by decide +kernel

/-! ## C19: round trip -/

/-- C19: values of any nesting come back, if their strings and keys are UTF-8 text without the characters U+0800 to U+FFFF.
Missing: those characters, strings that are not UTF-8 and the smallest 64-bit integer, for all of which the claim is false
(`C19_fails`). -/
theorem C19_partial (f : Dbl → Bytes) (v : JVal) (h : Good KeptText KeptText v) : parseText (toText f v) = some v := by
  have hk : ∀ s, KeptText s → reread s = s := by
    rintro s ⟨cs, rfl, hcs⟩
    exact reread_text cs hcs
  rw [parse_toText f hk reread_spec v h]
  have key : (∀ v, Good KeptText KeptText v → mapStr reread v = v) := by
    intro v
    apply JVal.rec (motive_1 := fun v => Good KeptText KeptText v → mapStr reread v = v)
      (motive_2 := fun l => GoodElems KeptText KeptText l → mapElems reread l = l)
      (motive_3 := fun l => GoodMembers KeptText KeptText l → mapMembers reread l = l)
      (motive_4 := fun m => Good KeptText KeptText m.2 → mapStr reread m.2 = m.2)
    · intro h; rfl
    · intro h; rfl
    · intro b h; rfl
    · intro i h; rfl
    · intro d h; rfl
    · intro s h
      rw [Good] at h
      rw [mapStr, hk s h]
    · intro l ih h
      rw [Good] at h
      rw [mapStr, ih h]
    · intro l ih h
      rw [Good] at h
      rw [mapStr, ih h.2]
    · intro h; rfl
    · intro v l ihv ihl h
      rw [GoodElems] at h
      rw [mapElems, ihv h.1, ihl h.2]
    · intro h; rfl
    · intro m l ihm ihl h
      rw [GoodMembers] at h
      rw [mapMembers, ihm h.2.1, ihl h.2.2]
    · intro k v ih h
      exact ih h
  rw [key v h]

/-- C19: whatever bytes the strings hold, they cannot change the structure of the value: only the strings themselves can
come back different, and each one by itself, in the same way wherever it stands. -/
theorem C19_structure : ∃ g : Bytes → Bytes, (∀ s, KeptText s → g s = s) ∧
    ∀ (f : Dbl → Bytes) (v : JVal), Good KeptText (fun _ => True) v → parseText (toText f v) = some (mapStr g v) := by
  have hk : ∀ s, KeptText s → reread s = s := by
    rintro s ⟨cs, rfl, hcs⟩
    exact reread_text cs hcs
  exact ⟨reread, hk, fun f v h => parse_toText f hk reread_spec v h⟩

/-- C19 does not hold for all strings and all integers: the euro sign (U+20AC) comes back as the four bytes of U+100AC, a
byte that is not UTF-8 comes back as two bytes, and the smallest integer overflows in the parser. -/
theorem C19_fails :
    (∃ (s t : Bytes), s = text ['€'] ∧ t ≠ s ∧ ∀ f, (parseText (toText f (.str s))) = some (.str t)) ∧
    (∃ (s t : Bytes), t ≠ s ∧ ∀ f, parseText (toText f (.str s)) = some (.str t)) ∧
    (∀ f, parseText (toText f (.int (-(2 ^ 63)))) = none) := by
  have p : ∀ s t, (parseVal ((escape s).length + 1) {} (escape s)).map (fun q => match q.1 with | .str x => x | _ => []) = some t →
      (∃ o, readString 34 false 0 [] (esc s ++ [34]) = some (o, [])) → ∀ f, parseText (toText f (.str s)) = some (.str t) := by
    intro s t h ⟨o, ho⟩ f
    have e : parseVal ((escape s).length + 1) {} (escape s) = some (.str o, []) := by
      have := escape_eq s []
      rw [List.append_nil] at this
      rw [this, parseVal]
      simp only [show (34 : UInt8) ≠ 123 by decide, show (34 : UInt8) ≠ 91 by decide, if_false, or_true, if_true, ho]
      simp
    rw [e] at h
    rw [toText, parseText, e]
    simpa using h
  refine ⟨⟨[0xE2, 0x82, 0xAC], [0xF0, 0x90, 0x82, 0xAC], by decide +kernel, by decide, ?_⟩, ⟨[0xFF], [0xC3, 0xBF], by decide, ?_⟩, ?_⟩
  · exact p _ _ (by decide +kernel) ⟨_, reread_spec _ _⟩
  · exact p _ _ (by decide +kernel) ⟨_, reread_spec _ _⟩
  · intro f
    rw [toText]
    have : (parseText (intText (-(2 ^ 63)))).isNone = true := by decide +kernel
    exact Option.isNone_iff_eq_none.mp this

/-- An object with a list in it, and what is written for it. -/
example : toText (fun _ => []) (.obj [(text ['a'], .arr [.int (-12), .bool true, .null, .arr [], .obj []]), (text ['b', '"'], .str (text ['é', '😀']))]) =
    "{\"a\":[-12,true,null,[],{}],\"b\\\"\":\"\\u00E9\\uD83D\\uDE00\"}".toUTF8.toList := by decide +kernel

example : Good KeptText KeptText
    (.obj [(text ['a'], .arr [.int (-12), .bool true, .null, .arr [], .obj []]), (text ['b', '"'], .str (text ['é', '😀']))]) := by
  simp only [Good, GoodElems, GoodMembers]
  refine ⟨by decide +kernel, ⟨['a'], rfl, by decide⟩, ?_, ⟨['b', '"'], rfl, by decide⟩, ⟨['é', '😀'], rfl, by decide⟩, trivial⟩
  simp

end Verif.Json
