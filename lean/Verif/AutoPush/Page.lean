import Verif.AutoPush.Model
import Verif.Base.Bytes

/-!
# Model of the list of pushes in shared memory

`/repo/src/controller/controller_push.cpp` 231-286: `writePushList` and `initPushCheck`. Simplification: the sum of the sizes of an entry
is below 2³² (the program adds them in 32 bits).
-/
namespace Verif.AutoPush

/-- The size of the page (controller_push.cpp 234, 260, 500). -/
def pageSize : Nat := 8 * 1024 * 1024

/-- `max` (controller_push.cpp 234). -/
def limit : Nat := pageSize - 4

/-- Writing into mapped memory at a position. -/
def overwrite (page : Bytes) (pos : Nat) (b : Bytes) : Bytes := page.take pos ++ b ++ page.drop (pos + b.length)

/-- A string with its size in two bytes (controller_push.cpp 245-247); `htobs` cuts the size to 16 bits. -/
def putString (s : Bytes) : Bytes := beEnc 2 s.length ++ s

/-- What is written for one push (controller_push.cpp 240-248): the process in four bytes, then three strings. -/
def entryBytes (p : Push) : Bytes := beEnc 4 p.pid ++ putString p.stream ++ putString p.orig ++ putString p.target

/-- `entrylen` (controller_push.cpp 237-238). -/
def entryLen (p : Push) : Nat := 4 + 2 + p.stream.length + 2 + p.orig.length + 2 + p.target.length

/-- The loop of `writePushList` (controller_push.cpp 235-252) from a position on. -/
def writeFrom : Nat → Bytes → List Push → Bytes
  | pos, page, [] => if pos ≤ limit then overwrite page pos (beEnc 4 0) else page
  | pos, page, p :: rest =>
    if pos + entryLen p ≥ limit then page else writeFrom (pos + entryLen p) (overwrite page pos (entryBytes p)) rest

/-- `writePushList` (controller_push.cpp 232-253). -/
def writePushList (page : Bytes) (l : List Push) : Bytes := writeFrom 0 page l

/-- One string of the reader (controller_push.cpp 271-273): the string and what follows; `none` when it would read past the page. -/
def getString (m : Bytes) : Option (Bytes × Bytes) :=
  if m.length < 2 + beVal (m.take 2) then none
  else some ((m.drop 2).take (beVal (m.take 2)), m.drop (2 + beVal (m.take 2)))

theorem getString_length {m s r : Bytes} (h : getString m = some (s, r)) : r.length ≤ m.length := by
  unfold getString at h
  split at h
  · cases h
  · simp only [Option.some.injEq, Prod.mk.injEq] at h
    rw [← h.2, List.length_drop]; omega

/-- One push of the reader (controller_push.cpp 267-274), after its process. -/
def getPush (pid : Nat) (m : Bytes) : Option (Push × Bytes) :=
  match getString m with
  | none => none
  | some (stream, m1) =>
    match getString m1 with
    | none => none
    | some (orig, m2) =>
      match getString m2 with
      | none => none
      | some (target, m3) => some (⟨pid, stream, orig, target⟩, m3)

theorem getPush_length {pid : Nat} {m r : Bytes} {p : Push} (h : getPush pid m = some (p, r)) : r.length ≤ m.length := by
  unfold getPush at h
  split at h
  · cases h
  next s1 m1 h1 =>
    split at h
    · cases h
    next s2 m2 h2 =>
      split at h
      · cases h
      next s3 m3 h3 =>
        simp only [Option.some.injEq, Prod.mk.injEq] at h
        rw [← h.2]
        have := getString_length h1
        have := getString_length h2
        have := getString_length h3
        omega

/-- The loop of `initPushCheck` (controller_push.cpp 265-280) on the memory from a position on; `none` when it would read past the
page. -/
def readFrom (m : Bytes) : Option (List Push) :=
  if h : m.length < 4 then none
  else if beVal (m.take 4) > 1 then
    match hp : getPush (beVal (m.take 4)) (m.drop 4) with
    | none => none
    | some (p, r) => (readFrom r).map fun l => p :: l
  else some []
termination_by m.length
decreasing_by
  have := getPush_length hp
  simp only [List.length_drop] at this
  omega

/-- `initPushCheck` (controller_push.cpp 256-286): the pushes are put into the map. -/
def initPushCheck (page : Bytes) : Option (List Push) := (readFrom page).map fun l => l.foldl (fun acc p => put p acc) []

end Verif.AutoPush
