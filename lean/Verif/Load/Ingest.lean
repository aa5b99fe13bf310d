import Verif.Load.Props
import Verif.Load.Hist

/-!
# C94: ingest points; C95: what a report and a failed poll change
-/
namespace Verif.Load
open Spec

/-- The processor of a server has the expected use left (tenths of a percent; none is expected if it is zero). -/
def Spare (cpu : Nat) (h : Host) : Prop := cpu = 0 ∨ h.cpu + cpu < 1000

theorem ingest_score {W : Weights} {h : Host} {cpu : Nat} (hs : Sane W h) :
    (Room h → Spare cpu h → source W h [] 0 [] cpu = points W h + 1) ∧ (Room h → ¬ Spare cpu h → source W h [] 0 [] cpu = 0) ∧
    (¬ Room h → source W h [] 0 [] cpu = 1) := by
  have hu := hs.use
  have hm := hs.mem
  have hl := hs.link
  have hmod : (h.up + h.add) % 2 ^ 64 = h.up + h.add := Nat.mod_eq_of_lt (by omega)
  have h0 : source W h [] 0 [] cpu = if h.up ≥ h.avail ∨ h.up + h.add ≥ h.avail then 1
      else if cpu ≠ 0 ∧ h.cpu + cpu ≥ 1000 then 0
      else adjusted ((cpuScore W h + ramScore W h + bwScore W h + 0 + 1) % 2 ^ 64) (adjustment h.tags []) := by
    unfold source
    rw [if_neg (fun hc => hc.1 rfl), if_neg (by omega), hmod]
  refine ⟨fun hr hsp => ?_, fun hr hsp => ?_, fun hr => ?_⟩
  · unfold Spare at hsp
    have hsc := scores hs hr
    have hsp' := points_lt hs
    unfold Room at hr
    rw [h0, if_neg (by omega), if_neg (by omega), hsc, Nat.mod_eq_of_lt (by omega), show adjustment h.tags [] = 0 from rfl, adjusted_eq (by omega)]
    omega
  · unfold Spare at hsp
    unfold Room at hr
    rw [h0, if_neg (by omega), if_pos (by omega)]
  · unfold Room at hr
    rw [h0, if_pos (by omega)]

/-- **C94** (ingest points). The server that is named as an ingest point for an expected use of the processor is online. If it has bandwidth left, its processor
has the expected use left, and no server that is online with both has more points. If it has no bandwidth left, there is no server that is online with both. If no server
is named, none that is online has both. -/
theorem C94_ingest (W : Weights) (E : List Entry) (cpu : Nat) (geo : Nat → Nat) (adj : List (Bytes × Int)) (hw : 0 < W.bw) (hsane : ∀ e ∈ E, Sane W e.host) :
    (∀ i, chooseIngest W E cpu geo adj = some i → ∃ e, E[i]? = some e ∧ e.state = .online ∧
      (Room e.host → Spare cpu e.host ∧
        ∀ e' ∈ E, e'.state = .online → Room e'.host → Spare cpu e'.host → points W e'.host ≤ points W e.host) ∧
      (¬ Room e.host → ∀ e' ∈ E, e'.state = .online → ¬ (Room e'.host ∧ Spare cpu e'.host))) ∧
    (chooseIngest W E cpu geo adj = none → ∀ e' ∈ E, e'.state = .online → ¬ (Room e'.host ∧ Spare cpu e'.host)) := by
  obtain ⟨h1, h2⟩ := best_choice (fun _ e => if e.state = .online then some (source W e.host [] 0 [] cpu) else none) E
  constructor
  · intro i hi
    obtain ⟨e, x, g1, g2, g3, g4⟩ := h1 i hi
    have hon : e.state = .online ∧ source W e.host [] 0 [] cpu = x := by
      split at g2
      · next h => exact ⟨h, Option.some.inj g2⟩
      · cases g2
    have hmax : ∀ e' ∈ E, e'.state = .online → source W e'.host [] 0 [] cpu ≤ x := by
      intro e' he' ho
      obtain ⟨j, hj, rfl⟩ := List.mem_iff_getElem.mp he'
      exact (g4 j _ _ (List.getElem?_eq_getElem hj) (by rw [if_pos ho])).1
    have hsc := ingest_score (cpu := cpu) (hsane e (List.mem_of_getElem? g1))
    refine ⟨e, g1, hon.1, fun hr => ?_, fun hr => ?_⟩
    · have hspare : Spare cpu e.host := by
        by_cases h : Spare cpu e.host
        · exact h
        · have := hsc.2.1 hr h; omega
      refine ⟨hspare, fun e' he' ho hr' hs' => ?_⟩
      have h3 := hmax e' he' ho
      have h4 := (ingest_score (cpu := cpu) (hsane e' he')).1 hr' hs'
      have h5 := hsc.1 hr hspare
      omega
    · intro e' he' ho hc
      have h3 := hmax e' he' ho
      have h4 := (ingest_score (cpu := cpu) (hsane e' he')).1 hc.1 hc.2
      have h5 := hsc.2.2 hr
      have h6 := points_pos (hsane e' he') hc.1 hw
      omega
  · intro hn e' he' ho hc
    obtain ⟨j, hj, rfl⟩ := List.mem_iff_getElem.mp he'
    have h3 := h2 hn j _ _ (List.getElem?_eq_getElem hj) (by rw [if_pos ho])
    have h4 := (ingest_score (cpu := cpu) (hsane _ he')).1 hc.1 hc.2
    omega

private def W0 : Weights := ⟨500, 500, 1000, 50⟩
private def idle : Host := { name := [97], bin := [1], cpu := 100, ramMax := 1000, ramCurr := 100 }
private def busy : Host := { name := [98], bin := [2], cpu := 950, ramMax := 1000, ramCurr := 900 }

/-- A server with room and a busy one: for a use of 10 % the first is named. -/
example : chooseIngest W0 [⟨.online, busy⟩, ⟨.online, idle⟩] 100 (fun _ => 0) [] = some 1 := by decide +kernel
example : chooseIngest W0 [⟨.online, busy⟩] 100 (fun _ => 0) [] = none := by decide +kernel
example : Sane W0 idle ∧ Sane W0 busy ∧ Room idle := by
  refine ⟨⟨?_, ?_, ?_, ?_, ?_, ?_⟩, ⟨?_, ?_, ?_, ?_, ?_, ?_⟩, ?_⟩ <;> first | decide | (unfold Room; decide)

/-- **C94** (fails: full ingest points). A server whose bandwidth and processor are both used up is named as an ingest point, whereas one of which just the processor is used
up is not. -/
theorem C94_ingest_full_fails : ∃ (W : Weights) (h h' : Host) (cpu : Nat), ¬ Room h ∧ ¬ Spare cpu h ∧ Room h' ∧ ¬ Spare cpu h' ∧
    chooseIngest W [⟨.online, h'⟩, ⟨.online, h⟩] cpu (fun _ => 0) [] = some 1 :=
  ⟨W0, { busy with up := 1000 * 1024 * 1024 }, busy, 100, by unfold Room; decide, by unfold Spare; decide, by unfold Room; decide, by unfold Spare; decide, by decide +kernel⟩

/-! ## Reports and failed polls -/

/-- **C95** (reports). After a report a server is online, with the use of the processor, the viewers, the configured streams and outputs of the report; with its limit of the
bandwidth and its tags if it has them, or else those before; and with what is used of the memory or of the shared memory, whichever is the larger share in thousandths. Other servers stay as they are. -/
theorem C95_report (W : Weights) (E : List Entry) (i : Nat) (e : Entry) (d : Report) (now : Nat) (he : E[i]? = some e)
    (hm : 0 < d.memTotal ∧ 0 < d.shmTotal) :
    ∃ e', (step W E (.report i d now))[i]? = some e' ∧ e'.state = .online ∧ e'.host.name = e.host.name ∧ e'.host.bin = e.host.bin ∧
      e'.host.cpu = d.cpu ∧ e'.host.total = d.viewers ∧ e'.host.conf = d.conf ∧ e'.host.outputs = d.outputs ∧
      (0 < d.bwlimit → e'.host.avail = d.bwlimit) ∧ (d.bwlimit = 0 → e'.host.avail = e.host.avail) ∧
      (∀ t, d.tags = some t → ∀ x, x ∈ e'.host.tags ↔ x ∈ t ∧ x ≠ []) ∧ (d.tags = none → e'.host.tags = e.host.tags) ∧
      (e'.host.ramMax = d.memTotal ∧ e'.host.ramCurr = d.memUsed + d.shmUsed ∨ e'.host.ramMax = d.shmTotal ∧ e'.host.ramCurr = d.shmUsed) ∧
      (d.memUsed + d.shmUsed) * 1000 / d.memTotal ≤ e'.host.ramCurr * 1000 / e'.host.ramMax ∧
      d.shmUsed * 1000 / d.shmTotal ≤ e'.host.ramCurr * 1000 / e'.host.ramMax ∧
      ∀ j : Nat, j ≠ i → (step W E (.report i d now))[j]? = E[j]? := by
  refine ⟨{ e with state := .online, host := update e.host d now }, ?_, rfl, rfl, rfl, rfl, rfl, rfl, rfl, ?_, ?_, ?_, ?_, ?_⟩
  · simp [step, List.getElem?_modify, he]
  · intro h; show (if d.bwlimit ≠ 0 then d.bwlimit else _) = _; rw [if_pos (by omega)]
  · intro h; show (if d.bwlimit ≠ 0 then d.bwlimit else _) = _; rw [if_neg (by omega)]
  · intro t ht x
    have : (update e.host d now).tags = t.filter (· ≠ []) := by unfold update; simp only [ht]
    show x ∈ (update e.host d now).tags ↔ _
    rw [this, List.mem_filter]
    simp
  · intro ht
    have : (update e.host d now).tags = e.host.tags := by unfold update; simp only [ht]
    exact this
  · have h1 : (update e.host d now).ramMax = (memory d).1 := rfl
    have h2 : (update e.host d now).ramCurr = (memory d).2 := rfl
    show ((update e.host d now).ramMax = _ ∧ (update e.host d now).ramCurr = _ ∨ _) ∧ _
    simp only [h1, h2]
    have h3 : memory d = if (d.memUsed + d.shmUsed) * 1000 / d.memTotal > d.shmUsed * 1000 / d.shmTotal then (d.memTotal, d.memUsed + d.shmUsed) else (d.shmTotal, d.shmUsed) := by
      unfold memory
      simp only [if_neg (show d.memTotal ≠ 0 by omega), if_neg (show d.shmTotal ≠ 0 by omega)]
    rw [h3]
    have hother : ∀ j : Nat, j ≠ i → (step W E (.report i d now))[j]? = E[j]? := by
      intro j hj
      simp only [step, List.getElem?_modify, if_neg (fun h : i = j => hj h.symm)]
      simp
    split
    · exact ⟨.inl ⟨rfl, rfl⟩, Nat.le_refl _, by simp only; omega, hother⟩
    · exact ⟨.inr ⟨rfl, rfl⟩, by simp only; omega, Nat.le_refl _, hother⟩

/-- **C95** (memory). A server that reports no memory at all is not taken for one that has none left: it can still be chosen. -/
theorem C95_memory (h : Host) (d : Report) (now : Nat) : 0 < (update h d now).ramMax := by
  have h1 : (update h d now).ramMax = (memory d).1 := rfl
  rw [h1]
  have hp : ∀ a : Nat, 0 < if a = 0 then 1 else a := fun a => by split <;> omega
  have h2 := hp d.memTotal
  have h3 := hp d.shmTotal
  unfold memory
  generalize (if d.memTotal = 0 then 1 else d.memTotal) = a at h2 ⊢
  generalize (if d.shmTotal = 0 then 1 else d.shmTotal) = b at h3 ⊢
  dsimp only
  split
  · exact h2
  · exact h3

theorem grown {a x : Nat} (h : a < 2 ^ 62) (hx : x = (a + 1024 * 1024) % 2 ^ 64 * 6 / 5) : a + 1024 * 1024 ≤ x ∧ a * 6 / 5 ≤ x := by
  rw [Nat.mod_eq_of_lt (by omega)] at hx
  omega

theorem badNess_add {h : Host} (hs : h.add < 2 ^ 62) : h.add + 1024 * 1024 ≤ (badNess h).add ∧ h.add * 6 / 5 ≤ (badNess h).add :=
  grown hs (by simp only [badNess])

theorem badNess_rest (h : Host) : { badNess h with add := h.add } = h := by
  obtain ⟨x, hx⟩ : ∃ x, badNess h = { h with add := x } := ⟨(h.add + 1024 * 1024) % 2 ^ 64 * 6 / 5, by unfold badNess; rfl⟩
  rw [hx]

/-- **C95** (failed polls). A server whose poll fails gets no viewers until the next report, and what is set aside of its bandwidth grows by a fifth and at least
one MiB per second. All else that is known of it stays. -/
theorem C95_failed (W : Weights) (E : List Entry) (i : Nat) (e : Entry) (he : E[i]? = some e) (hsmall : e.host.add < 2 ^ 62) :
    ∃ e', (step W E (.failed i))[i]? = some e' ∧ e'.state = .error ∧ e.host.add + 1024 * 1024 ≤ e'.host.add ∧ e.host.add * 6 / 5 ≤ e'.host.add ∧
      { e'.host with add := e.host.add } = e.host ∧ ∀ s geo adj, choose W (step W E (.failed i)) s geo adj ≠ some i := by
  have hget : (step W E (.failed i))[i]? = some { e with state := .error, host := badNess e.host } := by simp [step, List.getElem?_modify, he]
  have hb := badNess_add hsmall
  refine ⟨_, hget, rfl, hb.1, hb.2, badNess_rest e.host, ?_⟩
  · intro s geo adj hc
    obtain ⟨e2, g1, g2, _⟩ := (C94_choice W _ s geo adj).1 i hc
    rw [hget] at g1
    obtain rfl := Option.some.inj g1
    cases g2

end Verif.Load
