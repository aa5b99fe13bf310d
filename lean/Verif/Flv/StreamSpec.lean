import Verif.Flv.Spec

/-!
# Specification: files of FLV

After "Adobe Flash Video File Format Specification 10.1", annex E. Written without the model.
-/
namespace Verif.Flv.Spec

/-- UI24. -/
def ui24 (n : Nat) : Bytes := [UInt8.ofNat (n / 65536), UInt8.ofNat (n / 256), UInt8.ofNat n]

/-- The header of a file with the size of the "tag before the first". -/
inductive IsHeader : Bytes → Prop
  | mk (version flags : UInt8) : IsHeader [0x46, 0x4C, 0x56, version, flags, 0, 0, 0, 9, 0, 0, 0, 0]

/-- A tag with the size behind it: type (8 audio, 9 video, 18 script data; others reserved), size of the content, times and stream number,
content, size of the tag. -/
inductive IsTag : Bytes → Prop
  | mk (type : UInt8) (ht : type.toNat ≤ 18) (times body size : Bytes) (h7 : times.length = 7) (hb : body.length < 2 ^ 24)
      (h4 : size.length = 4) : IsTag (type :: (ui24 body.length ++ times ++ body ++ size))

/-- A file: headers (also between tags, as when files are concatenated) and tags. -/
inductive File : List Bytes → List Bytes → Prop
  | nil : File [] []
  | header {h parts tags} (hh : IsHeader h) (r : File parts tags) : File (h :: parts) tags
  | tag {t parts tags} (ht : IsTag t) (r : File parts tags) : File (t :: parts) (t :: tags)

end Verif.Flv.Spec
