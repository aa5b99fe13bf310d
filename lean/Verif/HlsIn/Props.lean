import Verif.HlsIn.Hist

/-!
# C113: reading of live HLS playlists

A segment with the media sequence number `n` is entry `n + 1` inside the program.
-/

namespace Verif.HlsIn
open Verif Spec

/-- C113: a playlist loaded gives, after the entries there were, one entry for each of its segments whose number was not
seen before, in order: its address, duration, range of bytes (two zeros for the whole file), and the key that was
downloaded with the vector of the last key tag before it.
What is missing for the full claim: key tags without a vector (`C113_iv_fails`, `C113_keepiv_fails`), keys that fail once
(`C113_retry_fails`), and `METHOD=NONE` (`C113_none_fails`); ranges without an offset and maps are not in the spec. -/
theorem C113_reload_partial (e : Env) (p : Pls) (seq : Nat) (l : List (Item × Bool)) (h : Playlist e.fetch seq l)
    (hk : ∀ u k, p.keys.lookup u = some k → if u = [] then k = [] else k = e.fetch u) :
    ∃ p', reload e p (text seq l) = some p' ∧ p'.first = seq
      ∧ p'.entries = p.entries ++ ((segments seq (l.map (·.1))).filter (fun g => decide (p.last ≤ g.num))).map (fun g =>
          { num := g.num + 1, url := e.link g.uri, rel := g.uri, dur := g.dur, start := (g.range.getD (0, 0)).1,
            stop := (g.range.getD (0, 0)).2, key := g.key.map (fun k => (e.fetch k.2, k.1)) })
      ∧ (∀ u k, p'.keys.lookup u = some k → if u = [] then k = [] else k = e.fetch u) := by
  obtain ⟨p', hr, o1, o2, o3, o4⟩ := reload_out e p (seq := seq) (by have := h.1; omega) l h.2 hk
  refine ⟨p', hr, o1, ?_, o2⟩
  rw [o3]
  show _ ++ (List.filter (fun g => decide (p.last < g.num + 1)) _).map (toEntry e) = _
  have : (fun g : Seg => decide (p.last < g.num + 1)) = (fun g => decide (p.last ≤ g.num)) := by
    funext g
    exact decide_eq_decide.2 Nat.lt_succ_iff
  rw [this]
  rfl

/-- Sixteen digits `1`, as bytes and as text. -/
def ivBytes : Bytes := List.replicate 16 0x11
/-- The text of it. -/
def ivText : Bytes := List.replicate 32 0x31

/-- A place where all keys are sixteen times 9 and addresses are left alone. -/
def env : Env := { fetch := fun _ => List.replicate 16 9, link := id }

/-- A playlist: a whole file, then a part of an encrypted one. -/
def sample : List (Item × Bool) :=
  [(.note (ascii "#EXT-X-TARGETDURATION:6"), true), (.inf (ascii "6.0,"), false), (.seg (ascii "a.ts"), false),
   (.key ivBytes ivText (ascii "k"), false), (.inf (ascii "5.0,"), true), (.range 7 3, false), (.seg (ascii "b.ts"), true)]

theorem digits_sample : Digits ivBytes ivText := by
  show Digits (List.replicate 16 0x11) (List.replicate 32 0x31)
  have : ∀ n, Digits (List.replicate n 0x11) (List.replicate (2 * n) 0x31) := by
    intro n
    induction n with
    | zero => rfl
    | succ n ih => exact ⟨0x31, 0x31, List.replicate (2 * n) 0x31, rfl, rfl, rfl, ih⟩
  exact this 16

theorem playlist_sample (seq : Nat) (h : seq < 1000) : Playlist env.fetch seq sample := by
  refine ⟨by show seq + 7 + 1 < _; omega, ?_⟩
  intro x hx
  simp only [sample, List.mem_cons, List.not_mem_nil, or_false] at hx
  rcases hx with rfl | rfl | rfl | rfl | rfl | rfl | rfl
  · exact ⟨Or.inr (by decide +kernel), trivial⟩
  · exact ⟨by show _ ∧ _; decide, trivial⟩
  · exact ⟨by show _ ∧ _; decide, trivial⟩
  · exact ⟨⟨rfl, digits_sample, by decide, by decide⟩, by decide, rfl⟩
  · exact ⟨by show _ ∧ _; decide, trivial⟩
  · exact ⟨by show _ ∧ _; decide, trivial⟩
  · exact ⟨by show _ ∧ _; decide, trivial⟩

/-- The sample meets the hypotheses; its entries are those. -/
example : Playlist env.fetch 4 sample ∧ (reload env .fresh (text 4 sample)).map (·.entries)
    = some [{ num := 5, url := ascii "a.ts", rel := ascii "a.ts", dur := ascii "6.0,", start := 0, stop := 0, key := none },
        { num := 6, url := ascii "b.ts", rel := ascii "b.ts", dur := ascii "5.0,", start := 3, stop := 10,
          key := some (List.replicate 16 9, ivBytes) }] :=
  ⟨playlist_sample 4 (by decide), by decide +kernel⟩

/-- C113: whatever playlists a live stream publishes and however reads of segments turn out, the input goes on; the
segments it takes over have ascending numbers, so none is taken twice or out of order; and each was in a playlist with
that number, address, duration, range and key.
What is missing for the full claim: what is missing in `C113_reload_partial`; playlists without segments
(`C113_empty_fails`) and numbers that go down (`C113_restart_fails`). -/
theorem C113_once_partial (e : Env) (evs : List (Event Entry)) (h : Live e.fetch 0 evs) :
    ∃ s, run e .fresh (evs.map opOf) = some s ∧ s.handed.Pairwise (fun x y => x.num < y.num)
      ∧ ∀ x ∈ s.handed, ∃ g, Listed g evs ∧ x =
        { num := g.num + 1, url := e.link g.uri, rel := g.uri, dur := g.dur,
          start := (g.range.getD (0, 0)).1, stop := (g.range.getD (0, 0)).2, key := g.key.map (fun k => (e.fetch k.2, k.1)) } := by
  obtain ⟨s, hr, m, hi⟩ := run_inv e evs [] 0 .fresh (inv_fresh e) h
  exact ⟨s, hr, hi.asc, fun x hx => hi.from_ x (Or.inr hx)⟩

/-- The sample twice, moved on by one, meets the hypotheses. -/
example : Live env.fetch 0 [Event.list 4 sample, .read (fun _ : Entry => true) 1, .list 5 sample, .read (fun x => x.num != 6) 9]
    ∧ (run env .fresh ([Event.list 4 sample, .read (fun _ : Entry => true) 1, .list 5 sample,
        .read (fun x => x.num != 6) 9].map opOf)).map (·.handed.map (·.num)) = some [5, 7] := by
  refine ⟨⟨by decide, playlist_sample 4 (by decide), ?_, by decide, playlist_sample 5 (by decide), ?_, trivial⟩, by decide +kernel⟩
  · simp [sample, segments, segs]
  · simp [sample, segments, segs]

theorem live_prefix {fetch : Bytes → Bytes} {u : List (Event Entry)} : ∀ {t : List (Event Entry)} {m : Nat},
    Live fetch m (t ++ u) → Live fetch m t := by
  intro t
  induction t with
  | nil => intro m _; trivial
  | cons v t ih =>
    intro m h
    cases v with
    | list a b => exact ⟨h.1, h.2.1, h.2.2.1, ih h.2.2.2⟩
    | read a b => exact ih (m := m) h

theorem well_append {u : List (Event Entry)} : ∀ {t : List (Event Entry)}, AllWell (t ++ u) → AllWell t ∧ AllWell u := by
  intro t
  induction t with
  | nil => intro h; exact ⟨trivial, h⟩
  | cons v t ih =>
    intro h
    cases v with
    | list a b => exact ih h
    | read a b => exact ⟨⟨h.1, (ih h.2).1⟩, (ih h.2).2⟩

theorem run_app (e : Env) : ∀ (a b : List Op) (s : In), run e s (a ++ b) = (run e s a).bind fun s' => run e s' b := by
  intro a
  induction a with
  | nil => intro b s; rfl
  | cons o t ih =>
    intro b s
    simp only [List.cons_append, run]
    cases step e s o with
    | none => rfl
    | some s' => exact ih b s'

/-- C113: if reads succeed, a playlist that is loaded and then read for long enough leaves none of its segments behind:
every one was taken over, now or before.
What is missing for the full claim: what is missing in `C113_once_partial`. -/
theorem C113_all_partial (e : Env) (evs : List (Event Entry)) (seq : Nat) (l : List (Item × Bool)) (ok : Entry → Bool) (n : Nat)
    (h : Live e.fetch 0 (evs ++ [Event.list seq l, Event.read ok n])) (hw : AllWell (evs ++ [Event.list seq l, Event.read ok n]))
    (hn : (segments seq (l.map (·.1))).length ≤ n) :
    ∃ s, run e .fresh ((evs ++ [Event.list seq l, Event.read ok n]).map opOf) = some s
      ∧ ∀ g ∈ segments seq (l.map (·.1)), ∃ x ∈ s.handed, x.num = g.num + 1 := by
  obtain ⟨w1, w2⟩ := well_append hw
  obtain ⟨s1, hr, hf, m, hi, hu⟩ := run_full e evs [] 0 .fresh (inv_fresh e) (by intro x hx; cases hx) (live_prefix h) w1
  obtain ⟨q1, q2, q3, -⟩ := hu _ h
  obtain ⟨s2, hs2, hi2, a1, a2, a3, a4, a5⟩ := inv_list e hi q1 q2 q3
  obtain ⟨s3, hs3, hi3⟩ := inv_read e hi2 ok n
  obtain ⟨-, hc⟩ := full_read e hi2 (full_list e hi hf a1 a2 a5) w2.1 hs3
  refine ⟨s3, ?_, ?_⟩
  · rw [List.map_append, run_app, hr]
    simp only [Option.bind_some, List.map_cons, List.map_nil, run]
    rw [hs2]
    simp only [Option.bind_some]
    rw [hs3]
    rfl
  · intro g hg
    have h1 := segs_ge _ _ _ _ _ g hg
    have h2 : g.num < seq + (segments seq (l.map (·.1))).length := by
      have : g.num ∈ (segments seq (l.map (·.1))).map (·.num) := List.mem_map.2 ⟨g, hg, rfl⟩
      unfold segments at this ⊢
      rw [segs_nums, List.mem_range'_1] at this
      exact this.2
    exact hc a3 g.num h1 (by omega) (by omega)

/-- The sample meets the hypotheses. -/
example : Live env.fetch 0 ([Event.list 4 sample, .read (fun _ : Entry => true) 1] ++ [Event.list 5 sample, Event.read (fun _ => true) 2])
    ∧ AllWell ([Event.list 4 sample, .read (fun _ : Entry => true) 1] ++ [Event.list 5 sample, Event.read (fun _ => true) 2])
    ∧ (segments 5 (sample.map (·.1))).length ≤ 2
    ∧ (run env .fresh (([Event.list 4 sample, .read (fun _ : Entry => true) 1] ++ [Event.list 5 sample, Event.read (fun _ => true) 2]).map
        opOf)).map (·.handed.map (·.num)) = some [5, 6, 7] := by
  refine ⟨⟨by decide, playlist_sample 4 (by decide), ?_, by decide, playlist_sample 5 (by decide), ?_, trivial⟩,
    ⟨fun _ => rfl, fun _ => rfl, trivial⟩, by decide, by decide +kernel⟩
  · simp [sample, segments, segs]
  · simp [sample, segments, segs]

/-- Lines, for the cases below. -/
def page (l : List String) : Bytes := l.flatMap (fun s => ascii s ++ [0x0A])

/-- C113 fails without a vector: the number of the segment is to be used, 7 here; the next number is. -/
theorem C113_iv_fails : (reload env .fresh (page ["#EXTM3U", "#EXT-X-MEDIA-SEQUENCE:7",
      "#EXT-X-KEY:METHOD=AES-128,URI=\"k\"", "a.ts"])).map (·.entries.map (·.key))
    = some [some (List.replicate 16 9, List.replicate 15 0 ++ [8])] := by decide +kernel

/-- C113 fails for a key tag without a vector after one with: the old vector is used, not the number. -/
theorem C113_keepiv_fails : (reload env .fresh (page ["#EXTM3U", "#EXT-X-MEDIA-SEQUENCE:7",
      "#EXT-X-KEY:METHOD=AES-128,URI=\"k\",IV=0x11111111111111111111111111111111", "a.ts",
      "#EXT-X-KEY:METHOD=AES-128,URI=\"q\"", "b.ts"])).map (·.entries.map (·.key))
    = some [some (List.replicate 16 9, ivBytes), some (List.replicate 16 9, ivBytes)] := by decide +kernel

/-- C113 fails after a key could not be downloaded once: it is not asked for again, and later segments are taken as not
encrypted although the key is there. -/
theorem C113_retry_fails : ((reload { env with fetch := fun _ => [] } .fresh (page ["#EXTM3U", "#EXT-X-MEDIA-SEQUENCE:7",
      "#EXT-X-KEY:METHOD=AES-128,URI=\"k\",IV=0x11111111111111111111111111111111", "a.ts"])).bind fun p =>
        reload env p (page ["#EXTM3U", "#EXT-X-MEDIA-SEQUENCE:8",
      "#EXT-X-KEY:METHOD=AES-128,URI=\"k\",IV=0x11111111111111111111111111111111", "b.ts"])).map (·.entries.map (·.key))
    = some [none, none] := by decide +kernel

/-- C113 fails for `METHOD=NONE`: a key is asked for at the address `OD=NONE`, and if something comes, segments that are
not encrypted are taken as encrypted. -/
theorem C113_none_fails : (reload env .fresh (page ["#EXTM3U", "#EXT-X-MEDIA-SEQUENCE:7",
      "#EXT-X-KEY:METHOD=NONE", "a.ts"])).map (fun p => (p.keys.map (·.1), p.entries.map (·.key.isSome)))
    = some ([ascii "OD=NONE"], [true]) := by decide +kernel

/-- C113 fails for a key tag without a method: the process ends. -/
theorem C113_method_fails : reload env .fresh (page ["#EXTM3U", "#EXT-X-MEDIA-SEQUENCE:7",
      "#EXT-X-KEY:URI=\"k\"", "a.ts"]) = none := by decide +kernel

/-- C113 fails for an address of a key with `IV=` in it: it is taken as the vector. -/
theorem C113_ivuri_fails : (reload env .fresh (page ["#EXTM3U", "#EXT-X-MEDIA-SEQUENCE:7",
      "#EXT-X-KEY:METHOD=AES-128,URI=\"k?IV=0x22222222222222222222222222222222\",IV=0x11111111111111111111111111111111",
      "a.ts"])).map (·.entries.map (·.key)) = some [some (List.replicate 16 9, List.replicate 16 0x22)] := by decide +kernel

/-- C113 fails for a playlist without segments and a higher number: the list is emptied and its first entry is read. -/
theorem C113_empty_fails : run env .fresh ([Event.list 4 sample, .read (fun _ : Entry => true) 9, .list 8 [],
    .read (fun _ => true) 9].map opOf) = none := by decide +kernel

/-- C113 fails when numbers start again: the new segments are not taken over, and the input is not ended to start
again. -/
theorem C113_restart_fails : (run env .fresh ([Event.list 4 sample, .read (fun _ : Entry => true) 9, .list 0 sample,
    .read (fun _ => true) 9].map opOf)).map (·.handed.map (·.num)) = some [5, 6] := by decide +kernel

end Verif.HlsIn
