import Verif.Base.Strings
import Verif.Enc.Model

/-!
# Model of query-string handling (`/repo/lib/http_parser.cpp` 743-788)

A `std::map<std::string,std::string>` is an association list; `mapSet` is `m[k] = v`, and
`List.lookup` is reading. Iteration order (sorted) is the order of the list given to `argStr`.
-/
namespace Verif.Query

/-- `m[k] = v`. -/
def mapSet (m : List (Bytes × Bytes)) (k v : Bytes) : List (Bytes × Bytes) :=
  (k, v) :: m.filter (fun e => e.1 != k)

/-- Lines 753-762 of `parseVars`: name and value of the part of `rest` before `next`. The '='
is searched in all of `rest` and used only if it lies before `next`. -/
def nameVal (rest : Bytes) (next : Nat) : Bytes × Bytes :=
  match findChar 61 rest with
  | some e =>
    if e < next then (rest.take e, (rest.drop (e + 1)).take (next - e - 1))
    else (rest.take next, [])
  | none => (rest.take next, [])

/-- `HTTP::parseVars` (http_parser.cpp 745-774); `rest` is `data` from `pos` on.
The separator must not be empty (the code would loop forever). -/
def parseVars (sep : Bytes) (hs : sep ≠ []) (query : Bool) (rest : Bytes)
    (storage : List (Bytes × Bytes)) : List (Bytes × Bytes) :=
  if _hr : rest = [] then storage
  else
    let next := (findSub sep rest).getD rest.length
    let nv := nameVal rest next
    let storage' :=
      if nv.1 = [] then storage
      else mapSet storage (Enc.urlDecode query nv.1) (Enc.urlDecode query nv.2)
    parseVars sep hs query (rest.drop (next + sep.length)) storage'
  termination_by rest.length
  decreasing_by
    have h1 : 0 < rest.length := List.length_pos_iff.mpr _hr
    have h2 : 0 < sep.length := List.length_pos_iff.mpr hs
    simp only [List.length_drop]; omega

/-- The loop of `HTTP::argStr` (http_parser.cpp 778-786). -/
def argStrLoop (withQ : Bool) : Bytes → List (Bytes × Bytes) → Bytes
  | ret, [] => ret
  | ret, (k, v) :: r =>
    if k = [] then argStrLoop withQ ret r
    else
      let ret := if ret.length > 1 then ret ++ [38] else if withQ then ret ++ [63] else ret
      argStrLoop withQ (ret ++ Enc.urlEncode [] false k ++ [61] ++ Enc.urlEncode [] false v) r

/-- `HTTP::argStr` (http_parser.cpp 776-788). -/
def argStr (vars : List (Bytes × Bytes)) (withQ : Bool) : Bytes := argStrLoop withQ [] vars

end Verif.Query
