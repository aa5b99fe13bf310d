import Verif.Totals.Streams

/-! # The totals of the server: cases and counterexamples -/
namespace Verif.Totals

open Verif Spec

instance (pre : List Ev) (e : Ev) : Decidable (Expected pre e) :=
  match e with
  | .rep r =>
    have d1 : Decidable (∀ q ∈ latest r.sid pre, q.now ≤ r.now ∧ (current r.sid pre = none → q.now < r.now)) :=
      match h : latest r.sid pre with
      | none => .isTrue (fun q hq => by cases hq)
      | some q =>
        if hc : q.now ≤ r.now ∧ (current r.sid pre = none → q.now < r.now) then .isTrue (fun q' hq => by cases hq; exact hc)
        else .isFalse (fun h' => hc (h' q rfl))
    have d2 : Decidable (∀ q ∈ current r.sid pre, q.down ≤ r.down ∧ q.up ≤ r.up) :=
      match h : current r.sid pre with
      | none => .isTrue (fun q hq => by cases hq)
      | some q =>
        if hc : q.down ≤ r.down ∧ q.up ≤ r.up then .isTrue (fun q' hq => by cases hq; exact hc)
        else .isFalse (fun h' => hc (h' q rfl))
    show Decidable (_ ∧ _ ∧ _ ∧ _ ∧ _) from inferInstance
  | .sweep =>
    have : DecidablePred fun e : Ev => (match e with | .rep q => current q.sid pre = some q → clock pre ≤ q.now + 600 | _ => True : Prop) := fun e =>
      match e with
      | .rep q => inferInstanceAs (Decidable (current q.sid pre = some q → clock pre ≤ q.now + 600))
      | .tick _ | .fin _ | .sweep => .isTrue trivial
    show Decidable (∀ e ∈ pre, _) from inferInstance
  | .tick t => inferInstanceAs (Decidable (clock pre ≤ t))
  | .fin _ => .isTrue trivial

theorem orderly_of (evs : List Ev) (h : ∀ i < evs.length, ∀ e ∈ evs[i]?, Expected (evs.take i) e) : Orderly evs := by
  intro pre e post he
  have h1 := h pre.length (by rw [he]; simp) e (by rw [he]; simp)
  rwa [he, List.take_left] at h1

instance (o : Option Ev) (P : Ev → Prop) [DecidablePred P] : Decidable (∀ e ∈ o, P e) :=
  match o with
  | none => .isTrue (fun e he => by cases he)
  | some a => if h : P a then .isTrue (fun e he => by cases he; exact h) else .isFalse (fun h' => h (h' a rfl))

/-- A viewer (`v`) and an input (`I`), the viewer ends and comes back; the input has an address that is not counted. -/
def busy : List Ev :=
  [.tick 1000, .rep { sid := [118], now := 1000, time := 1, down := 5, up := 500, stream := [97] }, .sweep,
   .tick 1001, .rep { sid := [118], now := 1001, time := 2, down := 6, up := 800, stream := [97] },
   .rep { sid := [73], now := 1000, time := 1, down := 3000, up := 0, stream := [97], free := true }, .sweep,
   .tick 1002, .rep { sid := [118], now := 1002, time := 2, down := 6, up := 900, stream := [97] }, .fin [118],
   .rep { sid := [73], now := 1002, time := 2, down := 7000, up := 0, stream := [97], free := true }, .sweep,
   .tick 1004, .rep { sid := [118], now := 1004, time := 1, down := 1, up := 70, stream := [98] }, .sweep]

example : Orderly busy := orderly_of busy (by decide +kernel)
example : Settled busy := by
  have h : ∀ a ∈ busy, ∀ b ∈ busy, (match a, b with | .rep r, .rep q => r.sid = q.sid → r.free = q.free | _, _ => True : Prop) := by
    simp [busy]
  intro r q hr hq
  exact h _ hr _ hq
example : (run busy).up = 900 + 70 - 500 ∧ (run busy).otherDown = 7000 ∧ (run busy).count .viewer = 2 ∧ (run busy).count .input = 1 ∧
    (run busy).access = [{ sid := [118], stream := [97], duration := 2, up := 900, down := 6 }] := by decide +kernel

/-- C100, refuted in general: what a session reported last is not counted if it is more than three seconds old when the controller gets to read it. -/
theorem C100_late_fails : ∃ evs, Settled evs ∧ (run evs).up = 0 ∧ final (fun r => if r.free then 0 else r.up) evs = 500 ∧ known (fun r => if r.free then 0 else r.up) evs = 0 :=
  ⟨[.tick 996, .sweep, .tick 1000, .rep { sid := [118], now := 996, up := 500, stream := [97] }, .fin [118], .sweep],
    by intro r q hr hq _; simp at hr hq; rw [hr, hq], by decide +kernel⟩

/-- C100, refuted in general: a session that does not report for ten minutes, and then goes on, is counted twice. -/
theorem C100_double_fails : ∃ evs, Settled evs ∧ (run evs).up = 1010 ∧ final (fun r => if r.free then 0 else r.up) evs = 510 :=
  ⟨[.tick 999, .sweep, .tick 1000, .rep { sid := [118], now := 1000, up := 500, stream := [97] }, .sweep, .tick 1601, .sweep,
    .tick 1602, .rep { sid := [118], now := 1602, up := 510, stream := [97] }, .sweep],
    by intro r q hr hq _; simp at hr hq; rcases hr with rfl | rfl <;> rcases hq with rfl | rfl <;> rfl, by decide +kernel⟩

/-- C100, refuted in general: when a session is started anew before its end was seen, what it then counts is missing in the total of the server, and what it had
counted is taken away from the total of its stream. -/
theorem C100_negative_fails : ∃ evs, Settled evs ∧ (run evs).up = 500 ∧ (find (run evs).streams [97]).up = 30 ∧
    final (fun r => if r.free then 0 else r.up) (evs.take 4 ++ [.fin [118]] ++ evs.drop 4) = 530 :=
  ⟨[.tick 999, .sweep, .tick 1000, .rep { sid := [118], now := 1000, up := 500, stream := [97] }, .sweep,
    .tick 1001, .rep { sid := [118], now := 1001, up := 30, stream := [97] }, .sweep],
    by intro r q hr hq _; simp at hr hq; rcases hr with rfl | rfl <;> rcases hq with rfl | rfl <;> rfl, by decide +kernel⟩

/-- C100, refuted in general: a session that was silent for ten minutes when it ends (such as one that a trigger has turned away, which waits for that long) has no line in the
access log. -/
theorem C100_access_fails : ∃ evs, (run evs).access = [] ∧ (lines evs).length = 1 :=
  ⟨[.tick 1000, .rep { sid := [118], now := 1000, up := 500, stream := [97] }, .sweep, .tick 1601, .sweep, .tick 1602, .fin [118], .sweep], by decide +kernel⟩

/-- C100, refuted: the seconds of all viewers together (`mist_viewseconds_total`) are added up anew in every pass, so that one viewer that was there for three seconds
counts as six. -/
theorem C100_seconds_fails : ∃ evs, Orderly evs ∧ Settled evs ∧ (run evs).seconds + (run evs).wiped = 6 ∧ final (fun r => r.time) evs = 3 :=
  ⟨[.tick 1000, .rep { sid := [118], now := 1000, time := 1, stream := [97] }, .sweep, .tick 1001, .rep { sid := [118], now := 1001, time := 2, stream := [97] }, .sweep,
    .tick 1002, .rep { sid := [118], now := 1002, time := 3, stream := [97] }, .sweep],
    orderly_of _ (by decide +kernel), by intro r q hr hq _; simp at hr hq; rcases hr with rfl | rfl | rfl <;> rcases hq with rfl | rfl | rfl <;> rfl, by decide +kernel⟩

/-- A viewer that was there for sixteen seconds, one that just came, and one that has ended. -/
def watched : List Ev :=
  [.tick 1000, .rep { sid := [118], now := 1000, stream := [97] }, .rep { sid := [119], now := 1000, stream := [97] }, .sweep,
   .tick 1001, .fin [119], .sweep,
   .tick 1016, .rep { sid := [118], now := 1016, stream := [97] }, .rep { sid := [120], now := 1016, stream := [97] }]

example : Orderly watched := orderly_of watched (by decide +kernel)
example : (find (run (watched ++ [.sweep])).streams [97]).now .viewer = 1 := by decide +kernel
example : (find (run (watched ++ [.sweep])).streams [97]).sess = 2 := by decide +kernel

end Verif.Totals
