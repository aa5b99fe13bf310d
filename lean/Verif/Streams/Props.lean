import Verif.Streams.Change

/-!
# C109: the configured streams are what was asked, and every process sees them
-/

namespace Verif.Streams
open Verif Verif.Streams.Spec

/-- **C109 (adding).** After a request that adds streams, whatever the state before it, every stream of the request is
as asked, or as before when it is the same or a trigger refused it or its name is not valid; and every other stream is
as before. A request names each stream once. -/
theorem C109_request (s : St) (e : Env) (req : List (Bytes × Conf)) (hd : (req.map (·.1)).Nodup) (n : Bytes) :
    match req.lookup n with
    | some c => Added e n c (s.streams.lookup n) ((request e [.add req] s).streams.lookup n)
    | none => Kept (s.streams.lookup n) ((request e [.add req] s).streams.lookup n) := by
  have hl : (request e [.add req] s).streams.lookup n = ((addStreams e req s).streams.lookup n).map removeNull := by
    unfold request
    rw [writeConfig_streams]
    rfl
  rw [hl]
  cases hr : req.lookup n with
  | some c => exact addStreams_some e req s n c hd hr
  | none =>
    simp only
    rw [addStreams_none e req s n hr]
    exact kept_removeNull _

/-- **C109 (replacing).** After a request with all streams, the streams of the request are as if added, and every other
stream is gone, unless a trigger refused its removal, when it is as before. -/
theorem C109_replace (s : St) (e : Env) (req : List (Bytes × Conf)) (hd : (req.map (·.1)).Nodup) (n : Bytes) :
    match req.lookup n with
    | some c => Added e n c (s.streams.lookup n) ((request e [.streams req] s).streams.lookup n)
    | none =>
      if e.keep n then Kept (s.streams.lookup n) ((request e [.streams req] s).streams.lookup n)
      else (request e [.streams req] s).streams.lookup n = none := by
  have hl : (request e [.streams req] s).streams.lookup n = ((checkStreams e req s).streams.lookup n).map removeNull := by
    unfold request
    rw [writeConfig_streams]
    rfl
  rw [hl, checkStreams_streams]
  cases hr : req.lookup n with
  | some c =>
    simp only [reduceCtorEq, false_and, if_false]
    exact addStreams_some e req s n c hd hr
  | none =>
    simp only [true_and]
    rw [addStreams_none e req s n hr]
    cases e.keep n with
    | true => simp only [Bool.true_eq_false, if_false, if_true]; exact kept_removeNull _
    | false => simp

/-- **C109 (removing).** After a request to remove streams, those whose removal no trigger refused are gone, and every
other is as before. -/
theorem C109_delete (s : St) (e : Env) (names : List Bytes) (n : Bytes) :
    (n ∈ names ∧ e.keep n = false → (request e [.delete names] s).streams.lookup n = none)
    ∧ (¬ (n ∈ names ∧ e.keep n = false) → Kept (s.streams.lookup n) ((request e [.delete names] s).streams.lookup n)) := by
  have hl : (request e [.delete names] s).streams.lookup n = ((deleteAll e names s).streams.lookup n).map removeNull := by
    unfold request
    rw [writeConfig_streams]
    rfl
  rw [hl, deleteAll_streams]
  constructor
  · intro h; simp [h]
  · intro h
    simp only [h, if_false]
    exact kept_removeNull _

/-- **C109 (seen), partial.** Whatever requests, status checks and restarts there were since the server started with
whatever configuration on disk: a stream has a page for other processes exactly if it is configured, and every member
they are told of agrees with the configuration. Missing: an empty list or object may be read for another value without
members (`C109_empty_fails`); reloads from disk and removals by the uplink (`C109_reload_fails`, `C109_removed_fails`,
`C109_uplink_fails`); streams named "log", "online" or "error" (`C109_lost_fails`); and the name that a status check
adds to a stream without one is told only after the next request. -/
theorem C109_seen_partial (disk : List (Bytes × Conf)) (evs : List Event) (ho : ∀ ev ∈ evs, Orderly ev) (n : Bytes)
    (hn : ¬ Lost n) :
    ((events evs (start disk)).streams.lookup n = none → (events evs (start disk)).pages.lookup n = none)
    ∧ ∀ c, (events evs (start disk)).streams.lookup n = some c →
        ∃ p, (events evs (start disk)).pages.lookup n = some p
          ∧ ∀ k, Told k → k ≠ nameKey → AgreesNearly (p.lookup k) (c.lookup k) := by
  have h := events_good evs (start disk) ho ⟨(start_good disk).1, upToDate_weaken (start_good disk).2⟩
  refine ⟨(h.1 n hn).2, ?_⟩
  intro c hc
  obtain ⟨p, h1, h2, _⟩ := h.2 n c hn hc
  exact ⟨p, h1, h2⟩

theorem events_append (a b : List Event) (s : St) : events (a ++ b) s = events b (events a s) := by
  induction a generalizing s with
  | nil => rfl
  | cons ev t ih => exact ih _

/-- **C109 (seen at once), partial.** When a request has been answered, every member that other processes are told of
agrees, the name too; with the same exceptions. -/
theorem C109_answered_partial (disk : List (Bytes × Conf)) (evs : List Event) (ho : ∀ ev ∈ evs, Orderly ev) (e : Env)
    (l : List Cmd) (hl : Orderly (.request e l)) (n : Bytes) (hn : ¬ Lost n) (c : Conf)
    (hc : (events (evs ++ [.request e l]) (start disk)).streams.lookup n = some c) :
    ∃ p, (events (evs ++ [.request e l]) (start disk)).pages.lookup n = some p
      ∧ ∀ k, Told k → AgreesNearly (p.lookup k) (c.lookup k) := by
  have h := events_good evs (start disk) ho ⟨(start_good disk).1, upToDate_weaken (start_good disk).2⟩
  rw [events_append] at hc ⊢
  obtain ⟨p, h1, h2, _⟩ := (request_good e l _ hl h.1).2 n c hn hc
  exact ⟨p, h1, fun k hk => h2 k hk trivial⟩

/-- **C109 (looking up).** A process that asks for a stream by a name of at most 100 bytes gets the page of the
stream before the first '+' or space, and by a longer name gets nothing. -/
theorem C109_lookup (s : St) (n b : Bytes) (hb : Names n b) :
    getStreamConfig s n = if n.length ≤ 100 then s.pages.lookup b else none := by
  rw [names_unique n b (base n) hb (base_names n)]
  unfold getStreamConfig
  by_cases h : n.length ≤ 100
  · simp [h, Nat.not_lt.2 h]
  · simp [h, Nat.lt_of_not_le h]

/-- **C109 (restarts).** Through a rolling restart a stream keeps every member, but for those named "log", "online" or
"error", unless it is itself so named. -/
theorem C109_restart (s : St) (n : Bytes) (hn : ¬ Lost n) :
    match s.streams.lookup n with
    | none => (restart s).streams.lookup n = none
    | some o => ∃ c, (restart s).streams.lookup n = some c
        ∧ ∀ k, k ≠ [] → ¬ Lost k → SameOpt (fun k => ¬ Lost k) (c.lookup k) (nonNull (o.lookup k)) := by
  have hu : ∀ k, ¬ Lost k → unsaved k = false := by
    intro k hk
    cases hu : unsaved k with
    | false => rfl
    | true => exact absurd ((lost_iff k).2 hu) hk
  have hl : (restart s).streams.lookup n = ((s.streams.lookup n).map saved).map removeNull := by
    unfold restart
    rw [writeConfig_streams]
    simp only
    rw [lookup_saved, hu n hn]
    rfl
  rw [hl]
  cases s.streams.lookup n with
  | none => rfl
  | some o =>
    refine ⟨_, rfl, ?_⟩
    intro k hk hkl
    rw [lookup_removeNull]
    simp only [hk, if_false]
    have hs : (saved o).lookup k = (o.lookup k).map savedVal := by
      unfold saved
      rw [lookup_mapv (fun _ v => savedVal v), lookup_filter (fun k => !unsaved k), hu k hkl]
      rfl
    rw [hs]
    cases o.lookup k with
    | none => trivial
    | some v =>
      cases v with
      | obj m =>
        simp only [Option.map_some, savedVal, nonNull, SameOpt, SameOn]
        intro k' hk'
        rw [lookup_filter (fun k => !unsaved k), hu k' hk']
        rfl
      | _ => simp [savedVal, nonNull, SameOpt, SameOn]

/-! ## Concrete cases and disagreements -/

/-- "tags". -/
def exTags : Bytes := [0x74, 0x61, 0x67, 0x73]
/-- "a" and "b". -/
def exA : Bytes := [0x61]
/-- See `exA`. -/
def exB : Bytes := [0x62]
/-- A source. -/
def exSource : Val := .str [0x2f, 0x78]
/-- No trigger refuses anything; a source prescribes that it is always on. -/
def exEnv : Env := { refuse := fun _ _ => false, keep := fun _ => false, hard := fun v => if v = some exSource then [([0x6f, 0x6e], .num [0x31])] else [] }

/-- A request adds a stream; the configuration has what was asked, the name and what the input prescribes. -/
example : (request exEnv [.add [(exA, [(kSource, exSource), (exTags, .null)])]] (start [])).streams
    = [(exA, [([0x6f, 0x6e], .num [0x31]), (kName, .str exA), (kSource, exSource)])] := by decide +kernel

/-- And its page says the same. -/
example : (request exEnv [.add [(exA, [(kSource, exSource), (exTags, .null)])]] (start [])).pages
    = [(exA, [([0x6f, 0x6e], .num [0x31]), (kName, .str exA), (kSource, exSource)])] := by decide +kernel

/-- A name that is not valid is not added; of all streams, those not asked for are removed. -/
example : (request exEnv [.add [([0x41], [])]] (start [])).streams = []
    ∧ ((request exEnv [.streams [(exB, [])]] (start [(exA, [(kSource, exSource)])])).streams.map (·.1)) = [exB]
    ∧ ((request exEnv [.streams [(exB, [])]] (start [(exA, [(kSource, exSource)])])).pages.map (·.1)) = [exB] := by
  decide +kernel

/-- A history with a status check and a restart: the state of the stream is not told. -/
example : (events [.request exEnv [.add [(exA, [(kSource, exSource)])]], .check (fun _ => (.num [0x31], some (.str exB))), .restart,
      .check (fun _ => (.num [0x31], none))] (start [])).streams
      = [(exA, [(kOnline, .num [0x31]), ([0x6f, 0x6e], .num [0x31]), (kName, .str exA), (kSource, exSource)])]
    ∧ getStreamConfig (events [.request exEnv [.add [(exA, [(kSource, exSource)])]],
      .check (fun _ => (.num [0x31], some (.str exB))), .restart, .check (fun _ => (.num [0x31], none))] (start []))
        (exA ++ [0x2B] ++ exB) = some [([0x6f, 0x6e], .num [0x31]), (kName, .str exA), (kSource, exSource)] := by
  decide +kernel

example : Orderly (.request exEnv [.add [(exA, [])], .delete [exA]]) ∧ ¬ Lost exA ∧ Told kSource ∧ Names (exA ++ [0x2B] ++ exB) exA := by
  refine ⟨?_, by simp [Lost, exA], by simp [Told, kSource], ⟨[0x2B] ++ exB, rfl, by simp [exA], Or.inr ⟨exB, Or.inl rfl⟩⟩⟩
  intro c hc disk
  simp only [List.mem_cons, List.not_mem_nil, or_false] at hc
  rcases hc with rfl | rfl <;> simp

/-- A stream with an empty list of tags, and the request that gives it a tag as a string. -/
def exOld : Conf := [(kName, .str exA), (kSource, .str exB), (exTags, .arr [])]
/-- See `exOld`. -/
def exNew : Conf := [(kName, .str exA), (kSource, .str exB), (exTags, .str exB)]

/-- **C109, disagreement.** A member that was an empty list and becomes a string is changed in the configuration, but
other processes are not told, after later requests and checks neither. -/
theorem C109_empty_fails :
    ∃ c p, (events [.request exEnv [.add [(exA, exNew)]], .check (fun _ => (.num [], none)), .request exEnv []]
        (start [(exA, exOld)])).streams.lookup exA = some c
      ∧ c.lookup exTags = some (.str exB)
      ∧ (events [.request exEnv [.add [(exA, exNew)]], .check (fun _ => (.num [], none)), .request exEnv []]
        (start [(exA, exOld)])).pages.lookup exA = some p
      ∧ p.lookup exTags = some (.arr [])
      ∧ ¬ Agrees (p.lookup exTags) (c.lookup exTags) := by
  refine ⟨[(kOnline, .num []), (kName, .str exA), (kSource, .str exB), (exTags, .str exB)], exOld, ?_⟩
  refine ⟨by decide +kernel, by decide +kernel, by decide +kernel, by decide +kernel, ?_⟩
  have h1 : List.lookup exTags exOld = some (.arr []) := by decide +kernel
  have h2 : List.lookup exTags [(kOnline, Val.num []), (kName, .str exA), (kSource, .str exB), (exTags, .str exB)] = some (.str exB) := by
    decide +kernel
  rw [h1, h2]
  simp [Agrees, SameOpt, SameOn]

/-- **C109, disagreement.** When the file is newer than what was read, the streams are reloaded but their pages are not
written: other processes do not see the change, until the next request to the API. -/
theorem C109_reload_fails :
    (events [.reload [(exB, [(kSource, exSource)])], .check (fun _ => (.num [], none))] (start [(exA, [])])).streams.map (·.1) = [exB]
    ∧ getStreamConfig (events [.reload [(exB, [(kSource, exSource)])], .check (fun _ => (.num [], none))] (start [(exA, [])])) exB = none
    ∧ getStreamConfig (events [.reload [(exB, [(kSource, exSource)])], .check (fun _ => (.num [], none))] (start [(exA, [])])) exA ≠ none := by
  decide +kernel

/-- **C109, disagreement.** A stream that a reload removes stays visible to other processes, also when the reload was
asked for by a request, and after later requests. -/
theorem C109_removed_fails :
    (events [.request exEnv [.reload []], .request exEnv [.add [(exB, [])]], .request exEnv [.delete [exA]]] (start [(exA, [(kSource, exSource)])])).streams.map (·.1) = [exB]
    ∧ getStreamConfig (events [.request exEnv [.reload []], .request exEnv [.add [(exB, [])]], .request exEnv [.delete [exA]]] (start [(exA, [(kSource, exSource)])])) exA
      = some [(kSource, exSource)] := by
  decide +kernel

/-- **C109, disagreement.** A stream that the uplink removes stays visible to other processes, after later requests
too. -/
theorem C109_uplink_fails :
    (events [.uplink [exA], .request exEnv [.delete [exA]]] (start [(exA, [(kSource, exSource)])])).streams = []
    ∧ getStreamConfig (events [.uplink [exA], .request exEnv [.delete [exA]]] (start [(exA, [(kSource, exSource)])])) exA = some [(kSource, exSource)] := by
  decide +kernel

/-- **C109, disagreement.** A stream named "log" is accepted and works, but is gone from the configuration after a
restart, while others still read it. -/
theorem C109_lost_fails :
    getStreamConfig (events [.request exEnv [.add [(kLog, [(kSource, exSource)])]]] (start [])) kLog ≠ none
    ∧ (events [.request exEnv [.add [(kLog, [(kSource, exSource)])]], .restart] (start [])).streams = []
    ∧ getStreamConfig (events [.request exEnv [.add [(kLog, [(kSource, exSource)])]], .restart] (start [])) kLog ≠ none := by
  decide +kernel

/-- **C109, disagreement.** A stream configured under a name with a '+' is accepted, but nobody who asks for it by its
name gets its configuration. -/
theorem C109_plus_fails :
    ((events [.request exEnv [.add [(exA ++ [0x2B] ++ exB, [(kSource, exSource)])]]] (start [])).streams.map (·.1)) = [exA ++ [0x2B] ++ exB]
    ∧ getStreamConfig (events [.request exEnv [.add [(exA ++ [0x2B] ++ exB, [(kSource, exSource)])]]] (start [])) (exA ++ [0x2B] ++ exB) = none := by
  decide +kernel

/-- **C109, disagreement.** A stream with a name of 101 bytes is accepted, but nobody gets its configuration. -/
theorem C109_long_fails :
    ((events [.request exEnv [.add [(List.replicate 101 0x61, [(kSource, exSource)])]]] (start [])).streams.map (·.1)) = [List.replicate 101 0x61]
    ∧ getStreamConfig (events [.request exEnv [.add [(List.replicate 101 0x61, [(kSource, exSource)])]]] (start [])) (List.replicate 101 0x61) = none := by
  decide +kernel

end Verif.Streams
