import Verif.Base.Bytes

/-!
# H.264 byte streams as they arrive
-/

namespace Verif.H264In.Spec
open Verif

/-- The start code. -/
def code : Bytes := [0, 0, 1]

/-- What arrives at once: ends of units, each followed by a start code, and the beginning of another one. -/
structure Read where
  /-- up to a start code each -/
  ends : List Bytes
  /-- behind the last start code -/
  rest : Bytes

/-- Its bytes. -/
def Read.bytes (r : Read) : Bytes := r.ends.flatMap (· ++ code) ++ r.rest

/-- There are no other start codes in it. -/
def Read.Ok (r : Read) : Prop :=
  (∀ x ∈ r.ends, ∀ k < x.length, ((x ++ code).drop k).take 3 ≠ code) ∧ (∀ k, (r.rest.drop k).take 3 ≠ code) ∧ r.bytes ≠ [] ∧ r.bytes.length ≤ 4096

/-- The complete units, given the beginning of the first. -/
def units : Bytes → List Read → List Bytes
  | _, [] => []
  | p, r :: t =>
    match r.ends with
    | [] => units (p ++ r.rest) t
    | e :: es => (p ++ e) :: es ++ units r.rest t

/-- How many units are taken when each read takes one, if there is one, of which `n` wait at first. -/
def taken : Nat → List Read → Nat
  | _, [] => 0
  | n, r :: t => if n + r.ends.length = 0 then taken 0 t else 1 + taken (n + r.ends.length - 1) t

/-- A unit without the zero bytes behind it. -/
def trim : Bytes → Bytes
  | [] => []
  | c :: t => if c = 0 ∧ trim t = [] then [] else c :: trim t

/-- The type of a unit. -/
def kind (n : Bytes) : Nat := (n.headD 0).toNat % 32

/-- The units that carry media: those that are not empty and no parameter sets, once both kinds of parameter sets were seen. -/
def media : Bool → Bool → List Bytes → List Bytes
  | _, _, [] => []
  | s, p, n :: t =>
    if n = [] then media s p t
    else if kind n = 7 then media true p t
    else if kind n = 8 then media s true t
    else if s && p then n :: media s p t
    else media s p t

end Verif.H264In.Spec
