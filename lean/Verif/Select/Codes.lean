import Verif.Base.Bytes

/-!
# Codes of languages

`Encodings::ISO639::twoToThree`, `/repo/lib/langcodes.cpp` 519-706, generated from the source.
-/
namespace Verif.Select

/-- langcodes.cpp 520-704: the codes of two letters and those of three. -/
def codes : List (Bytes × Bytes) := [
  ([97, 97], [97, 97, 114]),
  ([97, 98], [97, 98, 107]),
  ([97, 101], [97, 118, 101]),
  ([97, 102], [97, 102, 114]),
  ([97, 107], [97, 107, 97]),
  ([97, 109], [97, 109, 104]),
  ([97, 110], [97, 114, 103]),
  ([97, 114], [97, 114, 97]),
  ([97, 115], [97, 115, 109]),
  ([97, 118], [97, 118, 97]),
  ([97, 121], [97, 121, 109]),
  ([97, 122], [97, 122, 101]),
  ([98, 97], [98, 97, 107]),
  ([98, 101], [98, 101, 108]),
  ([98, 103], [98, 117, 108]),
  ([98, 104], [98, 105, 104]),
  ([98, 105], [98, 105, 115]),
  ([98, 109], [98, 97, 109]),
  ([98, 110], [98, 101, 110]),
  ([98, 111], [98, 111, 100]),
  ([98, 114], [98, 114, 101]),
  ([98, 115], [98, 111, 115]),
  ([99, 97], [99, 97, 116]),
  ([99, 101], [99, 104, 101]),
  ([99, 104], [99, 104, 97]),
  ([99, 111], [99, 111, 115]),
  ([99, 114], [99, 114, 101]),
  ([99, 115], [99, 101, 115]),
  ([99, 117], [99, 104, 117]),
  ([99, 118], [99, 104, 118]),
  ([99, 121], [99, 121, 109]),
  ([100, 97], [100, 97, 110]),
  ([100, 101], [100, 101, 117]),
  ([100, 118], [100, 105, 118]),
  ([100, 122], [100, 122, 111]),
  ([101, 101], [101, 119, 101]),
  ([101, 108], [101, 108, 108]),
  ([101, 110], [101, 110, 103]),
  ([101, 111], [101, 112, 111]),
  ([101, 115], [115, 112, 97]),
  ([101, 116], [101, 115, 116]),
  ([101, 117], [101, 117, 115]),
  ([102, 97], [102, 97, 115]),
  ([102, 102], [102, 117, 108]),
  ([102, 105], [102, 105, 110]),
  ([102, 106], [102, 105, 106]),
  ([102, 111], [102, 97, 111]),
  ([102, 114], [102, 114, 97]),
  ([102, 121], [102, 114, 121]),
  ([103, 97], [103, 108, 101]),
  ([103, 100], [103, 108, 97]),
  ([103, 108], [103, 108, 103]),
  ([103, 110], [103, 114, 110]),
  ([103, 117], [103, 117, 106]),
  ([103, 118], [103, 108, 118]),
  ([104, 97], [104, 97, 117]),
  ([104, 101], [104, 101, 98]),
  ([104, 105], [104, 105, 110]),
  ([104, 111], [104, 109, 111]),
  ([104, 114], [104, 114, 118]),
  ([104, 116], [104, 97, 116]),
  ([104, 117], [104, 117, 110]),
  ([104, 121], [104, 121, 101]),
  ([104, 122], [104, 101, 114]),
  ([105, 97], [105, 110, 97]),
  ([105, 100], [105, 110, 100]),
  ([105, 101], [105, 108, 101]),
  ([105, 103], [105, 98, 111]),
  ([105, 105], [105, 105, 105]),
  ([105, 107], [105, 112, 107]),
  ([105, 111], [105, 100, 111]),
  ([105, 115], [105, 115, 108]),
  ([105, 116], [105, 116, 97]),
  ([105, 117], [105, 107, 117]),
  ([106, 97], [106, 112, 110]),
  ([106, 118], [106, 97, 118]),
  ([107, 97], [107, 97, 116]),
  ([107, 103], [107, 111, 110]),
  ([107, 105], [107, 105, 107]),
  ([107, 106], [107, 117, 97]),
  ([107, 107], [107, 97, 122]),
  ([107, 108], [107, 97, 108]),
  ([107, 109], [107, 104, 109]),
  ([107, 110], [107, 97, 110]),
  ([107, 111], [107, 111, 114]),
  ([107, 114], [107, 97, 117]),
  ([107, 115], [107, 97, 115]),
  ([107, 117], [107, 117, 114]),
  ([107, 118], [107, 111, 109]),
  ([107, 119], [99, 111, 114]),
  ([107, 121], [107, 105, 114]),
  ([108, 97], [108, 97, 116]),
  ([108, 98], [108, 116, 122]),
  ([108, 103], [108, 117, 103]),
  ([108, 105], [108, 105, 109]),
  ([108, 110], [108, 105, 110]),
  ([108, 111], [108, 97, 111]),
  ([108, 116], [108, 105, 116]),
  ([108, 117], [108, 117, 98]),
  ([108, 118], [108, 97, 118]),
  ([109, 103], [109, 108, 103]),
  ([109, 104], [109, 97, 104]),
  ([109, 105], [109, 114, 105]),
  ([109, 107], [109, 107, 100]),
  ([109, 108], [109, 97, 108]),
  ([109, 110], [109, 111, 110]),
  ([109, 114], [109, 97, 114]),
  ([109, 115], [109, 115, 97]),
  ([109, 116], [109, 108, 116]),
  ([109, 121], [109, 121, 97]),
  ([110, 97], [110, 97, 117]),
  ([110, 98], [110, 111, 98]),
  ([110, 100], [110, 100, 101]),
  ([110, 101], [110, 101, 112]),
  ([110, 103], [110, 100, 111]),
  ([110, 108], [110, 108, 100]),
  ([110, 110], [110, 110, 111]),
  ([110, 111], [110, 111, 114]),
  ([110, 114], [110, 98, 108]),
  ([110, 118], [110, 97, 118]),
  ([110, 121], [110, 121, 97]),
  ([111, 99], [111, 99, 105]),
  ([111, 106], [111, 106, 105]),
  ([111, 109], [111, 114, 109]),
  ([111, 114], [111, 114, 105]),
  ([111, 115], [111, 115, 115]),
  ([112, 97], [112, 97, 110]),
  ([112, 105], [112, 108, 105]),
  ([112, 108], [112, 111, 108]),
  ([112, 115], [112, 117, 115]),
  ([112, 116], [112, 111, 114]),
  ([113, 117], [113, 117, 101]),
  ([114, 109], [114, 111, 104]),
  ([114, 110], [114, 117, 110]),
  ([114, 111], [114, 111, 110]),
  ([114, 117], [114, 117, 115]),
  ([114, 119], [107, 105, 110]),
  ([115, 97], [115, 97, 110]),
  ([115, 99], [115, 114, 100]),
  ([115, 100], [115, 110, 100]),
  ([115, 101], [115, 109, 101]),
  ([115, 103], [115, 97, 103]),
  ([115, 104], [104, 98, 115]),
  ([115, 105], [115, 105, 110]),
  ([115, 107], [115, 108, 107]),
  ([115, 108], [115, 108, 118]),
  ([115, 109], [115, 109, 111]),
  ([115, 110], [115, 110, 97]),
  ([115, 111], [115, 111, 109]),
  ([115, 113], [115, 113, 105]),
  ([115, 114], [115, 114, 112]),
  ([115, 115], [115, 115, 119]),
  ([115, 116], [115, 111, 116]),
  ([115, 117], [115, 117, 110]),
  ([115, 118], [115, 119, 101]),
  ([115, 119], [115, 119, 97]),
  ([116, 97], [116, 97, 109]),
  ([116, 101], [116, 101, 108]),
  ([116, 103], [116, 103, 107]),
  ([116, 104], [116, 104, 97]),
  ([116, 105], [116, 105, 114]),
  ([116, 107], [116, 117, 107]),
  ([116, 108], [116, 103, 108]),
  ([116, 110], [116, 115, 110]),
  ([116, 111], [116, 111, 110]),
  ([116, 114], [116, 117, 114]),
  ([116, 115], [116, 115, 111]),
  ([116, 116], [116, 97, 116]),
  ([116, 119], [116, 119, 105]),
  ([116, 121], [116, 97, 104]),
  ([117, 103], [117, 105, 103]),
  ([117, 107], [117, 107, 114]),
  ([117, 114], [117, 114, 100]),
  ([117, 122], [117, 122, 98]),
  ([118, 101], [118, 101, 110]),
  ([118, 105], [118, 105, 101]),
  ([118, 111], [118, 111, 108]),
  ([119, 97], [119, 108, 110]),
  ([119, 111], [119, 111, 108]),
  ([120, 104], [120, 104, 111]),
  ([121, 105], [121, 105, 100]),
  ([121, 111], [121, 111, 114]),
  ([122, 97], [122, 104, 97]),
  ([122, 104], [122, 104, 111]),
  ([122, 117], [122, 117, 108])]

/-- "und". -/
def und : Bytes := [117, 110, 100]

/-- langcodes.cpp 519-706: `twoToThree`. -/
def twoToThree (w : Bytes) : Bytes := (codes.lookup w).getD und

end Verif.Select
