import Verif.Json.Model
import Verif.Json.Spec

/-!
# JSON text as anyone may write it

RFC 8259, with quotes of both kinds: `Spells` says how a string may be written, `Denotes` which value a text stands for.
Left out: numbers with an exponent, and escapes for the characters U+0800 to U+FFFF.
-/
namespace Verif.Json.Spec

/-- Four hexadecimal digits of either case and the number they stand for. -/
def Hex4 (d : Bytes) (v : Nat) : Prop :=
  ∃ d1 d2 d3 d4 a b c e, d = [d1, d2, d3, d4] ∧ hexDigit d1 = some a ∧ hexDigit d2 = some b ∧ hexDigit d3 = some c ∧ hexDigit d4 = some e ∧
    v = a * 4096 + b * 256 + c * 16 + e

/-- How the characters of a string may be written between quotes `q`: as they are in UTF-8, as a two-character escape,
as an escape with four digits, or as two such escapes. -/
inductive Spells (q : UInt8) : Bytes → List Char → Prop
  | nil : Spells q [] []
  | raw (c : Char) (b : Bytes) (cs : List Char) : c.toNat ≠ q.toNat → c.toNat ≠ 92 → Spells q b cs →
      Spells q (String.utf8EncodeChar c ++ b) (c :: cs)
  | esc (e : UInt8) (c : Char) (b : Bytes) (cs : List Char) : simple e = some c.toNat → Spells q b cs → Spells q (92 :: e :: b) (c :: cs)
  | unit (d : Bytes) (c : Char) (b : Bytes) (cs : List Char) : Hex4 d c.toNat → c.toNat < 0x800 → Spells q b cs →
      Spells q (92 :: 117 :: (d ++ b)) (c :: cs)
  | pair (d e : Bytes) (c : Char) (b : Bytes) (cs : List Char) (x y : Nat) : utf16 c = [x, y] → Hex4 d x → Hex4 e y → Spells q b cs →
      Spells q (92 :: 117 :: (d ++ 92 :: 117 :: (e ++ b))) (c :: cs)

/-- Blanks, tabs and line ends. -/
def Ws (w : Bytes) : Prop := ∀ c ∈ w, c = 32 ∨ c = 9 ∨ c = 10 ∨ c = 13

/-- Decimal digits. -/
def Digits (ds : Bytes) : Prop := ∀ d ∈ ds, 48 ≤ d.toNat ∧ d.toNat ≤ 57

/-- Their value. -/
def number (ds : Bytes) : Nat := ds.foldl (fun v d => v * 10 + (d.toNat - 48)) 0

/-- An element of an array with what stands around it. -/
structure Item where
  w1 : Bytes
  body : Bytes
  w2 : Bytes
  val : JVal

/-- The text of an element. -/
def Item.text (x : Item) : Bytes := x.w1 ++ x.body ++ x.w2

/-- A member of an object with what stands around it. -/
structure Mem where
  w1 : Bytes
  q : UInt8
  key : Bytes
  name : List Char
  w2 : Bytes
  item : Item

/-- The text of a member. -/
def Mem.text (x : Mem) : Bytes := x.w1 ++ x.q :: (x.key ++ x.q :: (x.w2 ++ 58 :: x.item.text))

/-- Texts with commas between them. -/
def commas : List Bytes → Bytes
  | [] => []
  | [t] => t
  | t :: u :: r => t ++ 44 :: commas (u :: r)

/-- A sign. -/
def sign (neg : Bool) : Bytes := if neg then [45] else []

/-- The number with its sign. -/
def signed (neg : Bool) (n : Nat) : Int := if neg then -(n : Int) else n

/-- The members of an object, in order of their names. Of members with the same name the last one counts. -/
def collect (l : List Mem) : List (Bytes × JVal) := l.foldl (fun m x => mapSet m (text x.name) x.item.val) []

/-- The value of a text. -/
inductive Denotes : Bytes → JVal → Prop
  | null : Denotes [110, 117, 108, 108] .null
  | yes : Denotes [116, 114, 117, 101] (.bool true)
  | no : Denotes [102, 97, 108, 115, 101] (.bool false)
  | int (neg : Bool) (ds : Bytes) : ds ≠ [] → Digits ds → number ds < 2 ^ 63 → Denotes (sign neg ++ ds) (.int (signed neg (number ds)))
  | frac (neg : Bool) (ds fs : Bytes) : ds ≠ [] → Digits ds → Digits fs → number ds < 2 ^ 63 →
      Denotes (sign neg ++ (ds ++ 46 :: fs)) (.dbl ⟨neg, signed neg (number ds), fs.map fun d => d.toNat - 48⟩)
  | str (q : UInt8) (b : Bytes) (cs : List Char) : q = 34 ∨ q = 39 → Spells q b cs → Denotes (q :: (b ++ [q])) (.str (text cs))
  | empty (w : Bytes) : Ws w → Denotes (91 :: (w ++ [93])) (.arr [])
  | arr (l : List Item) : l ≠ [] → (∀ x ∈ l, Ws x.w1 ∧ Ws x.w2) → (∀ x ∈ l, Denotes x.body x.val) →
      Denotes (91 :: (commas (l.map Item.text) ++ [93])) (.arr (l.map Item.val))
  | none (w : Bytes) : Ws w → Denotes (123 :: (w ++ [125])) (.obj [])
  | obj (l : List Mem) : l ≠ [] → (∀ x ∈ l, Ws x.w1 ∧ Ws x.w2 ∧ Ws x.item.w1 ∧ Ws x.item.w2 ∧ (x.q = 34 ∨ x.q = 39) ∧ Spells x.q x.key x.name) →
      (∀ x ∈ l, Denotes x.item.body x.item.val) →
      Denotes (123 :: (commas (l.map Mem.text) ++ [125])) (.obj (collect l))

end Verif.Json.Spec
