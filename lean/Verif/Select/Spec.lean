import Verif.Select.Model

/-!
# What track selectors promise
-/
namespace Verif.Select.Spec
open Verif.Http (decimal lower)

/-- A track is of a type ("video", ...; also the name of a codec; nothing for all). -/
def Of (ty : Bytes) (t : Track) : Prop := ty = [] ∨ t.type = ty ∨ t.codec = ty

/-- The tracks a selector for a type can choose from. -/
def Cand (m : List Track) (l : Sel) (ty : Bytes) (t : Track) : Prop := t ∈ m ∧ l t.index = true ∧ Of ty t

/-- What can be wanted. -/
inductive Want where
  /-- The track of this number. -/
  | index (n : Nat)
  /-- The tracks with this ID. -/
  | id (n : Nat)
  /-- Every track that has a property. -/
  | every (p : Track → Prop)
  /-- One of those that have a property, such that none of them is better. -/
  | one (p : Track → Prop) (better : Track → Track → Prop)

/-- A set of track numbers is what is wanted. -/
def Meets (m : List Track) (l : Sel) (ty : Bytes) : Want → Sel → Prop
  | .index n, s => ∀ i, s i = true ↔ i = n ∧ ∃ t ∈ m, t.index = n ∧ Of ty t
  | .id n, s => ∀ i, s i = true ↔ ∃ t ∈ m, l i = true ∧ t.index = i ∧ t.id = n
  | .every p, s => ∀ i, s i = true ↔ ∃ t, Cand m l ty t ∧ t.index = i ∧ p t
  | .one p better, s =>
    (∃ t, Cand m l ty t ∧ p t ∧ (∀ i, s i = true ↔ i = t.index) ∧ ∀ u, Cand m l ty u → p u → ¬ better u t) ∨
    ((∀ t, Cand m l ty t → ¬ p t) ∧ ∀ i, s i = false)

/-- Units of bit rates. -/
inductive RateUnit where
  | bps
  | kbps
  | mbps

def RateUnit.text : RateUnit → Bytes
  | .bps => [98, 112, 115]
  | .kbps => [107, 98, 112, 115]
  | .mbps => [109, 98, 112, 115]

def RateUnit.factor : RateUnit → Nat
  | .bps => 1
  | .kbps => 1024
  | .mbps => 1048576

/-- Distance. -/
def dist (a b : Nat) : Nat := (a - b) + (b - a)

/-- Words with a meaning of their own. -/
def keywords : List Bytes := [sAll, sNone, sSurround, sMono, sStereo, sBframes] ++ sMaxBps ++ sMinBps ++ sMaxRes ++ sMinRes

/-- A word: small letters and digits, first a letter, not `i` and a digit, and not a keyword. -/
structure Word (w : Bytes) : Prop where
  first : ∃ c r, w = c :: r ∧ 97 ≤ c ∧ c ≤ 122 ∧ ∀ d, c = 105 → r.head? = some d → ¬ (48 ≤ d ∧ d ≤ 57)
  chars : ∀ c ∈ w, (97 ≤ c ∧ c ≤ 122) ∨ (48 ≤ c ∧ c ≤ 57)
  own : w ∉ keywords

/-- "720p", "1080p" and "1440p". -/
def formats : List (Bytes × Nat × Nat) :=
  [([55, 50, 48, 112], 1280, 720), ([49, 48, 56, 48, 112], 1920, 1080), ([49, 52, 52, 48, 112], 2560, 1440)]

/-- The selectors (in small letters) and what is wanted by them. Bit rates of tracks are in bytes per second. -/
inductive Says (ty : Bytes) : Bytes → Want → Prop where
  | number (n : Nat) (h : n < 2 ^ 63) : Says ty (decimal n) (.index n)
  | id (n : Nat) (h : n < 2 ^ 63) : Says ty (105 :: decimal n) (.id n)
  | all : Says ty sAll (.every fun _ => True)
  | star : Says ty [42] (.every fun _ => True)
  | maxBps (w : Bytes) (h : w ∈ sMaxBps) : Says ty w (.one (fun t => 0 < t.bps) fun a b => b.bps < a.bps)
  | minBps (w : Bytes) (h : w ∈ sMinBps) : Says ty w (.one (fun _ => True) fun a b => a.bps < b.bps)
  | under (n : Nat) (u : RateUnit) (h0 : 0 < n) (h : n * u.factor < 2 ^ 32) :
      Says ty (60 :: (decimal n ++ u.text)) (.every fun t => t.bps < n * u.factor / 8)
  | over (n : Nat) (u : RateUnit) (h0 : 0 < n) (h : n * u.factor < 2 ^ 32) :
      Says ty (62 :: (decimal n ++ u.text)) (.every fun t => n * u.factor / 8 < t.bps)
  | smaller (x y : Nat) (h0 : 0 < x * y) (h : x * y < 2 ^ 32) :
      Says ty (60 :: (decimal x ++ 120 :: decimal y)) (.every fun t => t.width * t.height < x * y)
  | larger (x y : Nat) (h0 : 0 < x * y) (h : x * y < 2 ^ 32) :
      Says ty (62 :: (decimal x ++ 120 :: decimal y)) (.every fun t => x * y < t.width * t.height)
  | upTo (n : Nat) (u : RateUnit) (h0 : 0 < n) (h : n * u.factor < 2 ^ 32) :
      Says ty (sMaxUnder ++ (decimal n ++ u.text)) (.one (fun _ => True) fun a b =>
        (b.bps ≤ n * u.factor / 8 ∧ a.bps ≤ n * u.factor / 8 ∧ b.bps < a.bps) ∨ (n * u.factor / 8 < b.bps ∧ a.bps < b.bps))
  | closest (n : Nat) (u : RateUnit) (h0 : 0 < n) (h : n * u.factor < 2 ^ 32) :
      Says ty (decimal n ++ u.text) (.one (fun _ => True) fun a b => dist a.bps (n * u.factor / 8) < dist b.bps (n * u.factor / 8))
  | surround (h : ty = [] ∨ ty = sAudio) : Says ty sSurround (.every fun t => 2 < t.channels)
  | mono (h : ty = [] ∨ ty = sAudio) : Says ty sMono (.every fun t => t.channels = 1)
  | stereo (h : ty = [] ∨ ty = sAudio) : Says ty sStereo (.every fun t => t.channels = 2)
  | channels (h : ty = [] ∨ ty = sAudio) (n : Nat) (h0 : 0 < n) (hn : n < 2 ^ 32) : Says ty (decimal n ++ sCh) (.every fun t => t.channels = n)
  | bframes (h : ty = [] ∨ ty = sVideo) : Says ty sBframes (.every fun t => t.bframes = true)
  | maxRes (h : ty = [] ∨ ty = sVideo) (w : Bytes) (hw : w ∈ sMaxRes) :
      Says ty w (.one (fun t => 0 < t.width * t.height) fun a b => b.width * b.height < a.width * a.height)
  | minRes (h : ty = [] ∨ ty = sVideo) (w : Bytes) (hw : w ∈ sMinRes) : Says ty w (.one (fun _ => True) fun a b => a.width * a.height < b.width * b.height)
  | like (h : ty = [] ∨ ty = sVideo) (x y : Nat) (hx : x < 2 ^ 32) (hy : y < 2 ^ 32) (ha : x * y < 2 ^ 32) :
      Says ty (126 :: (decimal x ++ 120 :: decimal y)) (.one (fun _ => True) fun a b => dist (a.width * a.height) (x * y) < dist (b.width * b.height) (x * y))
  | exactly (h : ty = [] ∨ ty = sVideo) (x y : Nat) (hx : x < 2 ^ 32) (hy : y < 2 ^ 32) :
      Says ty (decimal x ++ 120 :: decimal y) (.every fun t =>
        (t.width = x ∧ t.height = y) ∨ t.lang = decimal x ++ 120 :: decimal y ∨ t.codec.map lower = decimal x ++ 120 :: decimal y)
  | format (h : ty = [] ∨ ty = sVideo) (e : Bytes × Nat × Nat) (he : e ∈ formats) :
      Says ty e.1 (.every fun t => (t.width = e.2.1 ∧ t.height = e.2.2) ∨ t.lang = e.1 ∨ t.codec.map lower = e.1)
  | word (w : Bytes) (h : Word w) (h2 : w.length ≠ 2) : Says ty w (.every fun t => t.lang = w ∨ t.codec.map lower = w)
  | language (w : Bytes) (h : Word w) (h2 : w.length = 2) :
      Says ty w (.every fun t => t.lang = twoToThree w ∨ t.codec.map lower = twoToThree w)

/-- The numbers of a track are not at the end of their ranges. -/
structure Sane (t : Track) : Prop where
  bps : t.bps < 2 ^ 32 - 1
  area : t.width * t.height < 2 ^ 32 - 1

end Verif.Select.Spec
