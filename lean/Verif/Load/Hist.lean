import Verif.Load.Props

/-!
# C95: what the load balancer knows of servers, and how it spreads viewers
-/
namespace Verif.Load
open Verif.Load.Spec

/-! ## Streams of a report -/

theorem lookup_filter_ne (l : List (Bytes × Stream)) (k s : Bytes) :
    (l.filter fun p => p.1 ≠ k).lookup s = if s = k then none else l.lookup s := by
  induction l with
  | nil => simp
  | cons p l ih =>
    by_cases hp : p.1 = k
    · rw [List.filter_cons_of_neg (by simpa using hp), ih]
      by_cases hs : s = k
      · rw [if_pos hs, if_pos hs]
      · have : (s == p.1) = false := by rw [hp]; simpa using hs
        rw [if_neg hs, if_neg hs, List.lookup_cons, this]
    · rw [List.filter_cons_of_pos (by simpa using hp), List.lookup_cons, List.lookup_cons, ih]
      by_cases hs : s = k
      · have : (s == p.1) = false := by rw [hs]; simpa using fun h => hp h.symm
        rw [this]
      · rw [if_neg hs, if_neg hs]

theorem lookup_filter_known (l : List (Bytes × Stream)) (d : List (Bytes × RStream)) (s : Bytes) :
    (l.filter fun p => (d.lookup p.1).isSome).lookup s = if (d.lookup s).isSome then l.lookup s else none := by
  induction l with
  | nil => simp
  | cons p l ih =>
    by_cases hp : (d.lookup p.1).isSome = true
    · rw [List.filter_cons_of_pos (p := fun p => (d.lookup p.1).isSome) (a := p) hp, List.lookup_cons, List.lookup_cons, ih]
      by_cases hs : s = p.1
      · subst hs
        simp only [beq_self_eq_true, if_pos hp]
      · have : (s == p.1) = false := by simpa using hs
        rw [this]
    · rw [List.filter_cons_of_neg (p := fun p => (d.lookup p.1).isSome) (a := p) hp, ih]
      by_cases hs : s = p.1
      · subst hs
        rw [if_neg hp, if_neg hp]
      · have : (s == p.1) = false := by simpa using hs
        rw [List.lookup_cons, this]

/-- What is known of a stream agrees with its report. -/
def Agrees (x : Option Stream) (r : RStream) : Prop :=
  if r.viewers + r.inputs + r.outputs = 0 then x = none
  else ∃ y, x = some y ∧ y.total = r.viewers ∧ y.inputs = r.inputs ∧ y.rep = r.rep ∧ y.bytesUp = r.up ∧ y.bytesDown = r.down

theorem takeStream_same {t total up down : Nat} {l : List (Bytes × Stream)} {r : Bytes × RStream}
    (hs : r.2.viewers < 2 ^ 32 ∧ r.2.inputs < 2 ^ 32 ∧ r.2.outputs < 2 ^ 32 ∧ r.2.up < 2 ^ 62 ∧ r.2.down < 2 ^ 62) :
    Agrees ((takeStream t total up down l r).lookup r.1) r.2 := by
  have hc : (r.2.viewers + r.2.inputs + r.2.outputs) % 2 ^ 64 = r.2.viewers + r.2.inputs + r.2.outputs := Nat.mod_eq_of_lt (by omega)
  unfold takeStream Agrees
  simp only [hc]
  by_cases h0 : r.2.viewers + r.2.inputs + r.2.outputs = 0
  · rw [if_pos h0, if_pos h0, lookup_filter_ne, if_pos rfl]
  · rw [if_neg h0, if_neg h0, setStream, List.lookup_cons, beq_self_eq_true]
    exact ⟨_, rfl, rfl, Nat.mod_eq_of_lt hs.2.1, rfl, rfl, rfl⟩

theorem takeStream_other {t total up down : Nat} {l : List (Bytes × Stream)} {r : Bytes × RStream} {s : Bytes} (hs : s ≠ r.1) :
    (takeStream t total up down l r).lookup s = l.lookup s := by
  unfold takeStream
  have hb : (s == r.1) = false := by simpa using hs
  simp only
  by_cases h0 : (r.2.viewers + r.2.inputs + r.2.outputs) % 2 ^ 64 = 0
  · rw [if_pos h0, lookup_filter_ne, if_neg hs]
  · rw [if_neg h0, setStream, List.lookup_cons, hb]
    simp only
    rw [lookup_filter_ne, if_neg hs]

theorem fold_other {t total up down : Nat} {l : List (Bytes × Stream)} {d : List (Bytes × RStream)} {s : Bytes} (hs : s ∉ d.map Prod.fst) :
    (d.foldl (takeStream t total up down) l).lookup s = l.lookup s := by
  induction d generalizing l with
  | nil => rfl
  | cons r d ih =>
    rw [List.map_cons, List.mem_cons, not_or] at hs
    rw [List.foldl_cons, ih hs.2, takeStream_other hs.1]

theorem fold_same {t total up down : Nat} {l : List (Bytes × Stream)} {d : List (Bytes × RStream)} {s : Bytes} {r : RStream}
    (hn : (d.map Prod.fst).Nodup) (hs : ∀ r ∈ d, r.2.viewers < 2 ^ 32 ∧ r.2.inputs < 2 ^ 32 ∧ r.2.outputs < 2 ^ 32 ∧ r.2.up < 2 ^ 62 ∧ r.2.down < 2 ^ 62)
    (hr : d.lookup s = some r) : Agrees ((d.foldl (takeStream t total up down) l).lookup s) r := by
  induction d generalizing l with
  | nil => cases hr
  | cons q d ih =>
    rw [List.map_cons, List.nodup_cons] at hn
    rw [List.foldl_cons]
    rw [List.lookup_cons] at hr
    by_cases hq : s = q.1
    · subst hq
      rw [beq_self_eq_true] at hr
      simp only at hr
      obtain rfl := Option.some.inj hr
      rw [fold_other hn.1]
      exact takeStream_same (hs q List.mem_cons_self)
    · have : (s == q.1) = false := by simpa using hq
      rw [this] at hr
      exact ih hn.2 (fun r hr => hs r (List.mem_cons_of_mem _ hr)) hr

/-- **C95** (what is known of a server). After a report, a stream is known of the server just if the report has it with viewers, inputs or outputs;
the numbers of viewers and inputs, the bytes and the mark of streams from other servers are those of the report. -/
theorem C95_known (h : Host) (d : Report) (now : Nat) (s : Bytes) (hd : Fine d) :
    match d.streams.lookup s with
    | none => (update h d now).streams.lookup s = none
    | some r => if r.viewers + r.inputs + r.outputs = 0 then (update h d now).streams.lookup s = none
      else ∃ y, (update h d now).streams.lookup s = some y ∧ y.total = r.viewers ∧ y.inputs = r.inputs ∧ y.rep = r.rep ∧ y.bytesUp = r.up ∧ y.bytesDown = r.down := by
  have hu : ∃ t up down, (update h d now).streams = takeStreams t d.viewers up down h.streams d.streams := ⟨_, _, _, rfl⟩
  obtain ⟨t, up, down, hu⟩ := hu
  rw [hu]
  unfold takeStreams
  by_cases h0 : d.streams = []
  · rw [if_pos h0, h0]
    rfl
  · rw [if_neg h0, lookup_filter_known]
    cases hr : d.streams.lookup s with
    | none => simp
    | some r =>
      simp only [Option.isSome_some, if_true]
      exact fold_same hd.names hd.small hr

/-! ## Histories -/

theorem modify_get {E : List Entry} {i : Nat} {f : Entry → Entry} (j : Nat) : (E.modify i f)[j]? = if i = j then E[j]?.map f else E[j]? := by
  rw [List.getElem?_modify]
  by_cases h : i = j
  · simp only [if_pos h]; rfl
  · simp only [if_neg h]; cases E[j]? <;> rfl

theorem step_view (W : Weights) (E : List Entry) (s : Bytes) (geo : Nat → Nat) (adj : List (Bytes × Int)) :
    step W E (.view s geo adj) = match choose W E s geo adj with | none => E | some i => E.modify i fun e => { e with host := addViewer e.host s } := rfl

theorem step_length (W : Weights) (E : List Entry) (op : Op) : (step W E op).length = E.length := by
  cases op with
  | view s geo adj =>
    rw [step_view]
    cases choose W E s geo adj with
    | none => rfl
    | some i => exact List.length_modify ..
  | report i d now => exact List.length_modify ..
  | failed i => exact List.length_modify ..

theorem run_length (W : Weights) (E : List Entry) (ops : List Op) : (run W E ops).length = E.length := by
  induction ops generalizing E with
  | nil => rfl
  | cons op ops ih => exact (ih (step W E op)).trans (step_length W E op)

/-- Viewers of a stream on a host. -/
private def on (s : Bytes) (h : Host) : Nat := match h.streams.lookup s with | some x => x.total | none => 0

theorem on_update (h : Host) (d : Report) (now : Nat) (s : Bytes) (hd : Fine d) : on s (update h d now) = reported s (some d) := by
  have := C95_known h d now s hd
  simp only [on, reported]
  cases hr : d.streams.lookup s with
  | none =>
    rw [hr] at this
    simp only at this ⊢
    rw [this]
  | some r =>
    rw [hr] at this
    simp only at this ⊢
    by_cases h0 : r.viewers + r.inputs + r.outputs = 0
    · rw [if_pos h0] at this
      rw [this]
      simp only
      omega
    · rw [if_neg h0] at this
      obtain ⟨y, h1, h2, _⟩ := this
      rw [h1]
      exact h2

private theorem on_add (s : Bytes) (h : Host) (x : Nat) : on s { h with add := x } = on s h := by
  unfold on
  rfl

private theorem on_viewer (s s' : Bytes) (h : Host) : on s (addViewer h s') = on s h := by
  obtain ⟨x, hx⟩ : ∃ x, addViewer h s' = { h with add := x } := ⟨(h.add + viewerCost h s') % 2 ^ 64, by unfold addViewer; rfl⟩
  rw [hx]
  exact on_add s h x

private theorem on_bad (s : Bytes) (h : Host) : on s (badNess h) = on s h := by
  obtain ⟨x, hx⟩ : ∃ x, badNess h = { h with add := x } := ⟨(h.add + 1024 * 1024) % 2 ^ 64 * 6 / 5, by unfold badNess; rfl⟩
  rw [hx]
  exact on_add s h x

theorem step_on (W : Weights) (E : List Entry) (op : Op) (s : Bytes) (i : Nat) (e : Entry) (he : E[i]? = some e) (hoff : e.state ≠ .off)
    (hop : ∀ j d now, op = .report j d now → Fine d) :
    ∃ e', (step W E op)[i]? = some e' ∧ e'.state ≠ .off ∧ on s e'.host = (match lastReport i [op] with | some d => reported s (some d) | none => on s e.host) := by
  cases op with
  | view s' geo adj =>
    rw [step_view]
    cases choose W E s' geo adj with
    | none => exact ⟨e, he, hoff, rfl⟩
    | some k =>
      simp only
      rw [modify_get, he]
      by_cases hk : k = i
      · rw [if_pos hk]; exact ⟨_, rfl, hoff, on_viewer s s' e.host⟩
      · rw [if_neg hk]; exact ⟨_, rfl, hoff, rfl⟩
  | failed k =>
    simp only [step]
    rw [modify_get, he]
    by_cases hk : k = i
    · rw [if_pos hk]; exact ⟨_, rfl, (fun h => by cases h), on_bad s e.host⟩
    · rw [if_neg hk]; exact ⟨_, rfl, hoff, rfl⟩
  | report k d now =>
    simp only [step]
    rw [modify_get, he]
    simp only [lastReport]
    by_cases hk : k = i
    · rw [if_pos hk, if_pos hk]
      exact ⟨_, rfl, (fun h => by cases h), on_update e.host d now s (hop k d now rfl)⟩
    · rw [if_neg hk, if_neg hk]; exact ⟨_, rfl, hoff, rfl⟩

theorem run_on (W : Weights) (E : List Entry) (ops : List Op) (s : Bytes) (i : Nat) (e : Entry) (he : E[i]? = some e) (hoff : e.state ≠ .off)
    (hop : ∀ j d now, .report j d now ∈ ops → Fine d) :
    ∃ e', (run W E ops)[i]? = some e' ∧ e'.state ≠ .off ∧ on s e'.host = (match lastReport i ops with | some d => reported s (some d) | none => on s e.host) := by
  induction ops generalizing E e with
  | nil => exact ⟨e, he, hoff, rfl⟩
  | cons op ops ih =>
    obtain ⟨e1, h1, h2, h3⟩ := step_on W E op s i e he hoff (fun j d now h => hop j d now (by rw [← h]; exact List.mem_cons_self))
    obtain ⟨e2, g1, g2, g3⟩ := ih (step W E op) e1 h1 h2 (fun j d now h => hop j d now (List.mem_cons_of_mem _ h))
    refine ⟨e2, g1, g2, ?_⟩
    rw [g3]
    simp only [lastReport]
    cases lastReport i ops with
    | some d => rfl
    | none =>
      simp only
      rw [h3]
      simp only [lastReport]

/-- **C95** (the number of viewers). After any history of requests, reports and failed polls, the number of viewers of a stream is the
sum, over all servers, of the number in the last report of each. -/
theorem C95_viewers (W : Weights) (E : List Entry) (ops : List Op) (s : Bytes) (hE : ∀ e ∈ E, e.state = .boot ∧ e.host.streams = [])
    (hop : ∀ j d now, .report j d now ∈ ops → Fine d) (hsum : ((List.range E.length).map fun i => reported s (lastReport i ops)).sum < 2 ^ 64) :
    viewers (run W E ops) s = ((List.range E.length).map fun i => reported s (lastReport i ops)).sum := by
  have key : ∀ i, i < E.length → ∃ e', (run W E ops)[i]? = some e' ∧ e'.state ≠ .off ∧ on s e'.host = reported s (lastReport i ops) := by
    intro i hi
    have hm := hE _ (List.getElem_mem hi)
    obtain ⟨e', h1, h2, h3⟩ := run_on W E ops s i _ (List.getElem?_eq_getElem hi) (by rw [hm.1]; exact fun h => by cases h) hop
    refine ⟨e', h1, h2, ?_⟩
    rw [h3]
    cases lastReport i ops with
    | some d => rfl
    | none =>
      simp only [on, reported]
      rw [hm.2]
      rfl
  have hlist : (run W E ops).map (fun e => on s e.host) = (List.range E.length).map fun i => reported s (lastReport i ops) := by
    apply List.ext_getElem?
    intro i
    rw [List.getElem?_map, List.getElem?_map]
    by_cases hi : i < E.length
    · obtain ⟨e', h1, _, h3⟩ := key i hi
      rw [h1, List.getElem?_range hi]
      simp only [Option.map_some, h3]
    · rw [List.getElem?_eq_none (by rw [run_length]; omega), List.getElem?_eq_none (by rw [List.length_range]; omega)]
      rfl
  have hfilter : (run W E ops).filter (fun e => decide (e.state ≠ .off)) = run W E ops := by
    rw [List.filter_eq_self]
    intro e he
    obtain ⟨i, hi, rfl⟩ := List.mem_iff_getElem.mp he
    obtain ⟨e', h1, h2, _⟩ := key i (by rw [run_length] at hi; exact hi)
    rw [List.getElem?_eq_getElem hi] at h1
    rw [Option.some.inj h1]
    simpa using h2
  unfold viewers
  rw [hfilter]
  change ((run W E ops).map (fun e => on s e.host)).sum % 2 ^ 64 = _
  rw [hlist, Nat.mod_eq_of_lt hsum]

/-! ## Spreading of viewers -/

/-- **C95** (bandwidth that is set aside). For every viewer that is sent to a server, between 64 KiB and 1 MiB per second of its bandwidth is set aside; nothing else
of the server and no other server changes. -/
theorem C95_reserve (W : Weights) (E : List Entry) (s : Bytes) (geo : Nat → Nat) (adj : List (Bytes × Int)) (i : Nat) (e : Entry) (hc : choose W E s geo adj = some i)
    (he : E[i]? = some e) (hsmall : e.host.add < 2 ^ 63) : ∃ c, 64 * 1024 ≤ c ∧ c ≤ 1024 * 1024 ∧
      (step W E (.view s geo adj))[i]? = some { e with host := { e.host with add := e.host.add + c } } ∧ ∀ j, j ≠ i → (step W E (.view s geo adj))[j]? = E[j]? := by
  have hb : 64 * 1024 ≤ viewerCost e.host s ∧ viewerCost e.host s ≤ 1024 * 1024 := by
    suffices h : ∀ t : Nat, 64 * 1024 ≤ (if (if t < 64 * 1024 then 64 * 1024 else t) > 1024 * 1024 then 1024 * 1024 else if t < 64 * 1024 then 64 * 1024 else t) ∧
        (if (if t < 64 * 1024 then 64 * 1024 else t) > 1024 * 1024 then 1024 * 1024 else if t < 64 * 1024 then 64 * 1024 else t) ≤ 1024 * 1024 from h _
    intro t
    by_cases h1 : t < 64 * 1024
    · rw [if_pos h1, if_neg (by omega)]; omega
    · rw [if_neg h1]
      by_cases h2 : t > 1024 * 1024
      · rw [if_pos h2]; omega
      · rw [if_neg h2]; omega
  have hs : step W E (.view s geo adj) = E.modify i fun e => { e with host := addViewer e.host s } := by
    rw [step_view, hc]
  refine ⟨viewerCost e.host s, hb.1, hb.2, ?_, fun j hj => ?_⟩
  · rw [hs, modify_get, if_pos rfl, he]
    simp only [Option.map_some, addViewer]
    rw [Nat.mod_eq_of_lt (by omega)]
  · rw [hs, modify_get, if_neg (fun h => hj h.symm)]

theorem step_other (W : Weights) (E : List Entry) (op : Op) (i : Nat) (hop : match op with | .view _ _ _ => True | .report j _ _ => j ≠ i | .failed j => j ≠ i)
    (hn : ∀ s geo adj, op = .view s geo adj → choose W E s geo adj ≠ some i) : (step W E op)[i]? = E[i]? := by
  cases op with
  | view s geo adj =>
    have := hn s geo adj rfl
    rw [step_view]
    cases hc : choose W E s geo adj with
    | none => rfl
    | some k =>
      rw [hc] at this
      simp only
      rw [modify_get, if_neg (fun h => this (by rw [h]))]
  | report k d now => simp only [step]; rw [modify_get, if_neg hop]
  | failed k => simp only [step]; rw [modify_get, if_neg hop]

/-- **C95** (servers are not flooded). Between two polls, a server gets no more viewers than fit in the bandwidth it has left, at 64 KiB per second each: before the
last of `n` viewers, bandwidth for `n - 1` of them has been taken, and some is still left. -/
theorem C95_spread (W : Weights) (E : List Entry) (ops : List Op) (i : Nat) (e : Entry) (he : E[i]? = some e) (hops : Unpolled i ops)
    (hsmall : e.host.up + e.host.add < 2 ^ 63) (hlink : e.host.avail ≤ 2 ^ 62) (hn : 0 < sentTo W i E ops) :
    e.host.up + e.host.add + 65536 * (sentTo W i E ops - 1) < e.host.avail := by
  induction ops generalizing E e with
  | nil => exact absurd hn (by simp [sentTo])
  | cons op ops ih =>
    have hop := hops op List.mem_cons_self
    have hrest : Unpolled i ops := fun o ho => hops o (List.mem_cons_of_mem _ ho)
    by_cases hv : ∃ s geo adj, op = .view s geo adj ∧ choose W E s geo adj = some i
    · obtain ⟨s, geo, adj, rfl, hc⟩ := hv
      obtain ⟨c, h1, h2, h3, _⟩ := C95_reserve W E s geo adj i e hc he (by omega)
      obtain ⟨e2, g1, g2, g3, _⟩ := (C94_choice W E s geo adj).1 i hc
      rw [he] at g1
      obtain rfl := Option.some.inj g1
      have hroom := (C94_suitable W e.host s (geo i) adj (by omega) g3).2.1
      unfold Room at hroom
      have hsent : sentTo W i E (.view s geo adj :: ops) = 1 + sentTo W i (step W E (.view s geo adj)) ops := by
        change (if choose W E s geo adj = some i then 1 else 0) + _ = _
        rw [if_pos hc]
      rw [hsent]
      by_cases h0 : sentTo W i (step W E (.view s geo adj)) ops = 0
      · rw [h0]; omega
      · have := ih (step W E (.view s geo adj)) _ h3 hrest (by simp only; omega) hlink (by omega)
        simp only at this
        omega
    · have hstep := step_other W E op i hop (fun s geo adj h hc => hv ⟨s, geo, adj, h, hc⟩)
      have hsent : sentTo W i E (op :: ops) = sentTo W i (step W E op) ops := by
        cases op with
        | view s geo adj =>
          change (if choose W E s geo adj = some i then 1 else 0) + _ = _
          rw [if_neg (fun hc => hv ⟨s, geo, adj, rfl, hc⟩), Nat.zero_add]
        | report => exact Nat.zero_add _
        | failed => exact Nat.zero_add _
      rw [hsent] at hn ⊢
      exact ih (step W E op) e (by rw [hstep]; exact he) hrest hsmall hlink hn

/-- **C95** (set aside bandwidth is released). With every report, a quarter of what is set aside is released: after `n` reports of a server (in which time no viewers are
sent to it), no more than three quarters to the power of `n` are left. -/
theorem C95_release (h : Host) (reports : List (Report × Nat)) :
    (reports.foldl (fun h r => update h r.1 r.2) h).add * 4 ^ reports.length ≤ h.add * 3 ^ reports.length := by
  induction reports generalizing h with
  | nil => exact Nat.le_refl _
  | cons r l ih =>
    rw [List.foldl_cons, List.length_cons]
    have h1 := ih (update h r.1 r.2)
    have h2 : (update h r.1 r.2).add * 4 ≤ h.add * 3 := by
      change h.add * 3 / 4 * 4 ≤ h.add * 3
      exact Nat.div_mul_le_self _ _
    generalize (l.foldl (fun h r => update h r.1 r.2) (update h r.1 r.2)).add = x at *
    generalize (update h r.1 r.2).add = y at *
    rw [Nat.pow_succ, Nat.pow_succ]
    calc x * (4 ^ l.length * 4) = x * 4 ^ l.length * 4 := by rw [Nat.mul_assoc]
      _ ≤ y * 3 ^ l.length * 4 := Nat.mul_le_mul_right 4 h1
      _ = y * 4 * 3 ^ l.length := by rw [Nat.mul_assoc, Nat.mul_comm _ 4, Nat.mul_assoc]
      _ ≤ h.add * 3 * 3 ^ l.length := Nat.mul_le_mul_right _ h2
      _ = h.add * (3 ^ l.length * 3) := by rw [Nat.mul_assoc, Nat.mul_comm 3]

/-- **C95** (partly: bandwidth in use). The bandwidth in use is, after the first report, the increase of the bytes that were sent between the last two reports by the
seconds between them. Missing: servers that were started again between the reports (`C95_restart_fails`). -/
theorem C95_speed_partial (h : Host) (d d' : Report) (now now' : Nat) (h0 : 0 < now) (hnow : now < now' ∧ now' < 2 ^ 63) (hup : d.up ≤ d'.up) (hbig : d'.up < 2 ^ 64) :
    (update (update h d now) d' now').up = (d'.up - d.up) / (now' - now) := by
  have e : (update (update h d now) d' now').up =
      if (if now ≠ 0 then sub64 now' now else 0) ≠ 0 then sub64 d'.up d.up / (if now ≠ 0 then sub64 now' now else 0) else (update h d now).up := rfl
  rw [e, if_pos (show now ≠ 0 by omega), sub64_eq (Nat.le_of_lt hnow.1) (by omega), if_pos (by omega), sub64_eq hup hbig]

/-! ### Cases -/

private def W0 : Weights := ⟨500, 500, 1000, 50⟩
private def fresh : Host := { name := [97], bin := [1] }
/-- A report with three viewers of one stream, at 10 MB sent. -/
private def rep (up : Nat) : Report := ⟨100, 0, 1000, 100, 1000, 0, none, 3, up, 0, [([115], ⟨3, 1, 0, up, 0, false⟩)], [], []⟩

private theorem rep_fine (up : Nat) (h : up < 2 ^ 62) : Fine (rep up) := by
  refine ⟨?_, ?_⟩
  · simp [rep]
  · intro r hr
    simp only [rep, List.mem_singleton] at hr
    subst hr
    simp only
    omega

/-- Two servers with three viewers each; one fails, and still counts. -/
example : viewers (run W0 [⟨.boot, fresh⟩, ⟨.boot, fresh⟩] [.report 0 (rep 10000000) 1000, .view [115] (fun _ => 0) [], .report 1 (rep 10000000) 1001, .failed 1]) [115] = 6 := by decide +kernel
example : Fine (rep 10000000) := rep_fine _ (by decide)
/-- A server with bandwidth of 100000 bytes per second left gets two viewers, and the third is turned away. -/
example : sentTo W0 0 (run W0 [⟨.boot, { fresh with avail := 100000 }⟩] [.report 0 (rep 1000) 1000])
    [.view [116] (fun _ => 0) [], .view [116] (fun _ => 0) [], .view [116] (fun _ => 0) []] = 2 := by decide +kernel

/-- **C95** (fails: servers that are started again). The counters of a server begin at zero when it is started again; the bandwidth in use is then taken to be
enormous, and all viewers are turned away although the only server has no load. -/
theorem C95_restart_fails : ∃ (W : Weights) (E : List Entry) (d d' : Report) (now : Nat), Fine d ∧ Fine d' ∧ d'.up < 1000 ∧ d'.cpu ≤ 100 ∧
    (∃ i, choose W (run W E [.report 0 d now]) [115] (fun _ => 0) [] = some i) ∧ choose W (run W E [.report 0 d now, .report 0 d' (now + 5)]) [115] (fun _ => 0) [] = none := by
  refine ⟨W0, [⟨.boot, fresh⟩], rep 10000000, rep 0, 1000, rep_fine _ (by decide), rep_fine _ (by decide), by decide, by decide, ⟨0, by decide +kernel⟩, by decide +kernel⟩

end Verif.Load
