import Verif.Psi.Read

/-! # C106: program tables -/
namespace Verif.Psi
open Verif

/-- C106, partial (`Fits`: codecs that have a stream type, at most one track of cues, and a table of one packet): whatever tables were made before, the packet is a program map
with a valid check value, padded with 0xff: program 1, the clock on the first video track (or else the first track), and for each selected track, in order, its PID, a stream
type of its codec and the descriptors of its codec and language. -/
theorem C106_map_partial (before : List (List Track × Nat)) (b : Bytes) (hall : ∀ c ∈ before, Before c.1) (hb : calls before fresh = some b) (ts : List Track) (cc : Nat) (hf : Fits ts) :
    ∃ p s m body crc rest, createPMT b ts cc = some p ∧ section? p = some (4096, cc % 16, s) ∧ pmt? s = some (m, body, crc, rest) ∧ IsCrcOf body crc ∧ (∀ x ∈ rest, x = 0xff) ∧
      m.program = 1 ∧ m.current = true ∧ some m.pcr = (clockTrack ts).map (·.idx + 255) ∧
      descriptors 188 m.info = some (if ∃ t ∈ ts, t.codec = "SCTE35" then [(5, ascii "CUEI")] else []) ∧
      m.list.length = ts.length ∧
      ∀ (i : Nat) t, ts[i]? = some t → ∃ e, m.list[i]? = some e ∧ e.pid = t.idx + 255 ∧ (t.codec, e.typ) ∈ types ∧ descriptors 188 e.info = some (wanted t) := by
  obtain ⟨p, s, m, body, crc, rest, c, h1, h2, h3, h4, h5, h6, h7⟩ := pmt_all b (calls_buf fresh_buf hall hb) ts cc hf
  refine ⟨p, s, m, body, crc, rest, h1, h2, h3, h4, h5, by rw [h7], by rw [h7], by rw [h6, h7]; rfl, ?_, by rw [h7]; simp, ?_⟩
  · rw [h7]
    show descriptors 188 (progInfo ts) = _
    have hi : (ts.any (·.codec = "SCTE35") = true) ↔ ∃ t ∈ ts, t.codec = "SCTE35" := by
      rw [List.any_eq_true]
      constructor
      · rintro ⟨t, ht, hc⟩; exact ⟨t, ht, of_decide_eq_true hc⟩
      · rintro ⟨t, ht, hc⟩; exact ⟨t, ht, decide_eq_true hc⟩
    unfold progInfo
    by_cases he : ∃ t ∈ ts, t.codec = "SCTE35"
    · rw [if_pos he, if_pos (hi.2 he), ascii_all.2.2.2]; decide +kernel
    · rw [if_neg he, if_neg (fun h => he (hi.1 h))]; rfl
  · intro i t ht
    refine ⟨esOf t, by rw [h7]; simp [ht], rfl, known_type (hf.known t (List.mem_of_getElem? ht)), wanted_parse t⟩

/-- C106: the association table says that the map of program 1 is on PID 4096, and its check value is valid; that is where a reader then looks. -/
theorem C106_association (cc : Nat) :
    ∃ s body crc, section? (patPacket cc) = some (0, cc % 16, s) ∧ pat? s = some ([(1, 4096)], body, crc) ∧ IsCrcOf body crc ∧ readPids (patPacket cc) = some [4096] := by
  have hk : cc % 16 < 16 := Nat.mod_lt _ (by omega)
  have key : ∀ k < 16, section? (patBytes.set 3 (UInt8.ofNat ((at' patBytes 3).toNat / 16 * 16 + k))) = some (0, k, patBytes.drop 5) ∧
      readPids (patBytes.set 3 (UInt8.ofNat ((at' patBytes 3).toNat / 16 * 16 + k))) = some [4096] := by decide +kernel
  refine ⟨patBytes.drop 5, (patBytes.drop 5).take 12, ((patBytes.drop 5).drop 12).take 4, (key _ hk).1, by decide +kernel, ?_, (key _ hk).2⟩
  have : ((patBytes.drop 5).drop 12).take 4 = crcOf ((patBytes.drop 5).take 12) := by decide +kernel
  rw [this]
  exact crc_ok _

/-- C106: streams of different tracks have different PIDs, none of which belongs to a table (below index 3841). -/
theorem C106_pids (ts : List Track) (hn : (ts.map (·.idx)).Nodup) (hi : ∀ t ∈ ts, t.idx < 3841) :
    ((ts.map esOf).map (·.pid)).Nodup ∧ ∀ t ∈ ts, (esOf t).pid ≠ 0 ∧ (esOf t).pid ≠ 1 ∧ (esOf t).pid ≠ 17 ∧ (esOf t).pid ≠ 4096 ∧ (esOf t).pid < 8191 := by
  constructor
  · have e : (ts.map esOf).map (·.pid) = (ts.map (·.idx)).map (· + 255) := by simp [esOf, pidOf]
    rw [e]
    have key : ∀ l : List Nat, l.Nodup → (l.map (· + 255)).Nodup := by
      intro l
      induction l with
      | nil => intro _; simp
      | cons a l ih =>
        intro h
        rw [List.nodup_cons] at h
        rw [List.map_cons, List.nodup_cons]
        refine ⟨?_, ih h.2⟩
        intro hm
        obtain ⟨x, hx, he⟩ := List.mem_map.1 hm
        have : x = a := by omega
        exact h.1 (this ▸ hx)
    exact key _ hn
  · intro t ht
    have := hi t ht
    show pidOf t ≠ 0 ∧ pidOf t ≠ 1 ∧ pidOf t ≠ 17 ∧ pidOf t ≠ 4096 ∧ pidOf t < 8191
    unfold pidOf
    omega

/-- C106: of every packet with a whole program map, from whatever sender, exactly the streams of the map are read. -/
theorem C106_read {p s : Bytes} {pid cc : Nat} {m : Pmt} {body crc rest : Bytes} (hp : section? p = some (pid, cc, s)) (hm : pmt? s = some (m, body, crc, rest)) :
    readEntries p = some m.list := read_pmt hp hm

/-- C106: of well-formed descriptors, the data of the first one with a tag is found, and nothing if there is none. -/
theorem C106_tag {n m : Nat} {info : Bytes} {ds : List (UInt8 × Bytes)} (tag : UInt8) (h : descriptors n info = some ds) (hm : info.length ≤ m) :
    getTag m tag info = ((ds.find? (·.1 = tag)).map (·.2)).getD [] := tag_eq tag h hm

/-- What a codec is taken for by a reader: MP3 and MP2 have one stream type. -/
def seenAs (codec : String) : String := if codec = "MP3" then "MP2" else codec

/-- C106, partial (`Fits`): a reader of a table that was made sees every selected track, in order, with its PID, codec and language. -/
theorem C106_round_partial (before : List (List Track × Nat)) (b : Bytes) (hall : ∀ c ∈ before, Before c.1) (hb : calls before fresh = some b) (ts : List Track) (cc : Nat) (hf : Fits ts) :
    ∃ p es, createPMT b ts cc = some p ∧ readEntries p = some es ∧
      es.map (fun e => (e.pid, kindOf e, getTag 188 0x0a e.info)) = ts.map fun t => (t.idx + 255, some (seenAs t.codec), if told t then t.lang ++ [0] else []) := by
  obtain ⟨p, s, m, body, crc, rest, c, h1, h2, h3, h4, h5, h6, h7⟩ := pmt_all b (calls_buf fresh_buf hall hb) ts cc hf
  refine ⟨p, m.list, h1, read_pmt h2 h3, ?_⟩
  rw [h7]
  show (ts.map esOf).map _ = _
  rw [List.map_map]
  refine List.map_congr_left ?_
  intro t ht
  have hk := hf.known t ht
  have hl : (esInfo t).length ≤ 188 := by
    have g := known_len hk
    have r : room t ≤ (ts.map room).sum := by
      clear h1 h2 h3 h4 h5 h6 h7 g hf
      induction ts with
      | nil => cases ht
      | cons a l ih =>
        simp only [List.map_cons, List.sum_cons]
        rcases List.mem_cons.1 ht with rfl | ht
        · omega
        · have := ih ht; omega
    have := hf.room
    rw [room_eq, bytesOf_length] at r
    omega
  have tg := fun tag => C106_tag (m := 188) tag (wanted_parse t) hl
  obtain ⟨a1, a2, a3, a4⟩ := ascii_all
  have e1 : kindOf (esOf t) = some (seenAs t.codec) := by
    unfold kindOf esOf
    simp only
    rw [tg 5]
    unfold wanted special typeOf seenAs
    rw [a1, a2, a3, a4]
    rcases known_cases hk with e | e | e | e | e | e | e | e | e | e | e <;> rw [e] <;> simp
  have e2 : getTag 188 0x0a (esOf t).info = if told t then t.lang ++ [0] else [] := by
    show getTag 188 0x0a (esInfo t) = _
    rw [tg 0x0a]
    unfold wanted special
    by_cases hl : told t
    · rw [if_pos hl, if_pos hl]
      rcases known_cases hk with e | e | e | e | e | e | e | e | e | e | e <;> rw [e] <;> simp
    · rw [if_neg hl, if_neg hl]
      rcases known_cases hk with e | e | e | e | e | e | e | e | e | e | e <;> rw [e] <;> simp
  show (_, _, _) = _
  rw [e1, e2]
  rfl

/-! ## A concrete case -/

/-- A video track, two audio tracks with languages, and cues. -/
def sample : List Track :=
  [{ idx := 1, codec := "AAC", lang := [0x65, 0x6e, 0x67] }, { idx := 2, codec := "H264", video := true }, { idx := 5, codec := "opus", channels := 2, lang := [0x64, 0x75, 0x74] },
    { idx := 7, codec := "SCTE35" }]

theorem sample_fits : Fits sample := ⟨by decide, by decide +kernel, by decide, by decide +kernel, by decide +kernel⟩

example : (∀ c ∈ [(sample, 3), ([{ idx := 9, codec := "H264" }], 4)], Before c.1) ∧ (calls [(sample, 3), ([{ idx := 9, codec := "H264" }], 4)] fresh).isSome := by
  constructor
  · intro c hc
    rcases List.mem_cons.1 hc with rfl | hc
    · exact ⟨by decide, by decide +kernel⟩
    · rcases List.mem_cons.1 hc with rfl | hc
      · exact ⟨by decide, by decide +kernel⟩
      · cases hc
  · decide +kernel

/-! ## What the code does not do -/

/-- Two tracks of cues. -/
def cues : List Track := [{ idx := 1, codec := "SCTE35" }, { idx := 2, codec := "SCTE35" }]

/-- With two tracks of cues the length counts the descriptor of the program twice: the table is not well-formed. -/
theorem C106_cues_fails : ∃ p s, createPMT fresh cues 0 = some p ∧ section? p = some (4096, 0, s) ∧ pmt? s = none := by
  refine ⟨(createPMT fresh cues 0).getD [], ((createPMT fresh cues 0).getD []).drop 5, ?_, ?_, ?_⟩ <;> decide +kernel

/-- A track of ID3 with initialisation data. -/
def id3 : List Track := [{ idx := 1, codec := "ID3", init := [0x1b, 0xe1, 0x23, 0xf0, 0x00] }]

/-- The initialisation data of an ID3 track is counted, written, and then replaced by other descriptors: what is left of it is read as a stream that is not there. -/
theorem C106_id3_fails : ∃ p es, createPMT fresh id3 0 = some p ∧ readEntries p = some es ∧ es.map (·.pid) = [256, 0x123] := by
  refine ⟨(createPMT fresh id3 0).getD [], ((readEntries ((createPMT fresh id3 0).getD [])).getD []), ?_, ?_, ?_⟩ <;> decide +kernel

/-- Twelve tracks of AAC with a language. -/
def many : List Track := (List.range 12).map fun i => { idx := i, codec := "AAC", lang := [0x65, 0x6e, 0x67] }

/-- Twelve tracks of AAC with a language do not fit into a packet: bytes outside of it are written. -/
theorem C106_many_fails : (∀ t ∈ many, t.codec ∈ types.map (·.1)) ∧ (∀ t ∈ many, t.idx + 255 < 8191) ∧ createPMT fresh many 0 = none := by decide +kernel

/-- The first packet of a program map of several packets. -/
def long : Bytes := [0x47, 0x50, 0, 0x10, 0, 2, 0xb3, 0xfd, 0, 1, 0xc1, 0, 0, 0xe1, 0, 0xf0, 0] ++ List.replicate 171 0

/-- Of a program map that continues in the next packet, bytes outside of the packet are read. -/
theorem C106_long_fails : long.length = 188 ∧ (∃ s, section? long = some (4096, 0, s)) ∧ readEntries long = none := by
  refine ⟨by decide +kernel, ⟨long.drop 5, by decide +kernel⟩, by decide +kernel⟩

/-- A codec without a stream type keeps the type that another table had there. -/
theorem C106_stale_fails : ∃ b p es, createPMT fresh [{ idx := 1, codec := "H264" }] 0 = some b ∧ createPMT b [{ idx := 1, codec := "FLAC" }] 1 = some p ∧ readEntries p = some es ∧
    es.map kindOf = [some "H264"] := by
  refine ⟨(createPMT fresh [{ idx := 1, codec := "H264" }] 0).getD [], (createPMT ((createPMT fresh [{ idx := 1, codec := "H264" }] 0).getD []) [{ idx := 1, codec := "FLAC" }] 1).getD [],
    [⟨0x1b, 256, []⟩], ?_, ?_, ?_, ?_⟩ <;> decide +kernel

/-- The descriptor of the service is said to be one byte longer than it is, whatever the name of the stream. -/
theorem C106_service_fails (name : Bytes) (h : name.length ≤ 100) (n : Nat) : descriptors n (sdtInfo name) = none := by
  cases n with
  | zero => rfl
  | succ n =>
    show (if _ then _ else _) = _
    rw [if_pos]
    rw [u8n]
    show List.length (_ ++ name) < _
    rw [List.length_append]
    simp [appName]
    omega

end Verif.Psi
