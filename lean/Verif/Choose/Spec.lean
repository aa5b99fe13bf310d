import Verif.Choose.Model

/-!
# What the choice of tracks promises
-/
namespace Verif.Choose.Spec
open Verif.Select (Track Sel)

/-- `v` occurs in `s`. -/
def Occurs (v s : Bytes) : Prop := ∃ a b, s = a ++ v ++ b

/-- An entry says something about a user agent: without a list always, with one if a text of the list occurs in the agent, and for the
kinds with `_except` if none does. -/
def Applies (ua : Bytes) (e : Entry) : Prop :=
  match e.values with
  | none => True
  | some vs => if e.kind = sWhiteExcept ∨ e.kind = sBlackExcept then ¬ ∃ v ∈ vs, Occurs v ua else ∃ v ∈ vs, Occurs v ua

/-- The last entry that says something says no. An unknown agent is never refused. -/
def Refuses (ex : List Entry) (ua : Bytes) : Prop :=
  ua ≠ [] ∧ ∃ a e b, ex = a ++ e :: b ∧ Applies ua e ∧ (e.kind ≠ sWhite ∧ e.kind ≠ sWhiteExcept) ∧ ∀ x ∈ b, ¬ Applies ua x

/-- A codec is refused to a user agent. -/
def Refused (c : Capa) (ua name : Bytes) : Prop := ∃ ex, c.exceptions.lookup (sCodec ++ name) = some ex ∧ Refuses ex ua

/-- A wish for tracks in the capabilities: the name of a codec, or of a type with '@', for several tracks with '+', all with "*". -/
structure Wish where
  byType : Bool
  several : Bool
  name : Bytes

def Wish.text (w : Wish) : Bytes := (if w.byType then [64] else []) ++ (if w.several then [43] else []) ++ w.name

/-- The name does not start with a mark. -/
def Wish.Plain (w : Wish) : Prop := w.name.head? ≠ some 64 ∧ w.name.head? ≠ some 43

def Wish.Takes (w : Wish) (t : Track) : Prop := (if w.byType then t.type else t.codec) = w.name ∨ w.name = [42]

/-- Capabilities written in this way. -/
def Written (c : Capa) : Prop := ∀ cs, c.codecs = some cs → ∀ k ∈ cs, ∀ g ∈ k, ∀ s ∈ g, ∃ w : Wish, w.Plain ∧ s = w.text

/-- A text takes a track. -/
def Takes (s : Bytes) (t : Track) : Prop := ∃ w : Wish, w.Plain ∧ s = w.text ∧ w.Takes t

/-- A text is for several tracks. -/
def Several (s : Bytes) : Prop := ∃ w : Wish, w.Plain ∧ s = w.text ∧ w.several = true

/-- A text is refused to a user agent. -/
def TextRefused (c : Capa) (ua s : Bytes) : Prop := ∃ w : Wish, w.Plain ∧ s = w.text ∧ Refused c ua w.name

/-- The output can play a track to a user agent: some text takes it that is not refused. -/
def Codec (c : Capa) (ua : Bytes) (t : Track) : Prop :=
  ∀ cs, c.codecs = some cs → ∃ k ∈ cs, ∃ g ∈ k, ∃ s ∈ g, Takes s t ∧ ¬ TextRefused c ua s

/-- The scheme of an encryption, before its '/'. -/
def Scheme (e s : Bytes) : Prop := 47 ∉ s ∧ (e = s ∨ ∃ r, e = s ++ 47 :: r)

/-- The output can decrypt a track, or need not. -/
def Decrypts (c : Capa) (t : Track) : Prop := t.encryption = [] ∨ ∃ s ∈ c.encryption, Scheme t.encryption s

/-- A track is asked for. -/
def Asked (m choice : List Track) (p : Params) (i : Nat) : Prop :=
  ∃ q ∈ [(sAudio, p.audio), (sVideo, p.video), (sSubtitle, p.subtitle), (sMeta, p.metadata)], q.2 ≠ [] ∧ Select.find m (Select.ofTracks choice) q.1 q.2 i = true
where
  sAudio := Select.sAudio
  sVideo := Select.sVideo

/-- There is no selector for the type of a track, so that it may be chosen automatically. -/
def Free (p : Params) (t : Track) : Prop :=
  (t.type = Select.sAudio → p.audio = []) ∧ (t.type = Select.sVideo → p.video = []) ∧ (t.type = sMeta → p.metadata = []) ∧
  (t.type = sSubtitle ∨ t.codec = sSubtitle → p.subtitle = [])

/-- A combination has room for tracks: each is taken by a text that is not refused, and texts that are not for several take one. -/
def Room (c : Capa) (ua : Bytes) (k : List (List Bytes)) (ts : List Track) : Prop :=
  (∀ t ∈ ts, ∃ s ∈ k.flatten, Takes s t ∧ ¬ TextRefused c ua s) ∧
  ∀ s ∈ k.flatten, ¬ Several s → ¬ TextRefused c ua s → ∀ t ∈ ts, ∀ u ∈ ts, Takes s t → Takes s u → t = u

/-- No two texts of a combination take the same track. -/
def Distinct (k : List (List Bytes)) : Prop := k.flatten.Pairwise fun r s => ∀ t, ¬ (Takes r t ∧ Takes s t)

end Verif.Choose.Spec
