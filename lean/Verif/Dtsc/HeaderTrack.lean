import Verif.Dtsc.HeaderLoad
import Verif.Dtsc.HeaderSpec

/-!
# Loading a track that `send` writes
-/
namespace Verif.Dtsc
open Spec Verif.Bit Verif.Json
open Verif.Index (Tab Part Key Frag)

variable {bits : Dbl → Nat}

/-! ## Tables -/

theorem rows_filled {α : Type} (zero : α) (l : List α) : rows (filled zero l) = l := by
  rw [rows]
  apply List.ext_getElem?
  intro i
  rw [List.getElem?_map, show (filled zero l).pres = l.length from rfl]
  by_cases hi : i < l.length
  · rw [List.getElem?_range hi, Option.map_some, show (filled zero l).start + i = i from Nat.zero_add i, Tab.get, Tab.idx,
      show (filled zero l).n = l.length from rfl, if_pos (by omega), Nat.mod_eq_of_lt hi]
    show some (l[i]?.getD zero) = _
    rw [List.getElem?_eq_getElem hi, Option.getD_some]
  · rw [List.getElem?_eq_none (by simpa using hi), Option.map_none, List.getElem?_eq_none (by omega)]

theorem number_counted (l : List Key) (total : Nat) (hl : total + (l.map (·.parts)).sum < 2 ^ 64) : number total l = counted total l := by
  induction l generalizing total with
  | nil => rfl
  | cons k r ih =>
    rw [List.map_cons, List.sum_cons] at hl
    rw [number, counted, Nat.mod_eq_of_lt (by omega), ih _ (by omega)]

theorem counted_zero (l : List Key) (total : Nat) : counted total (l.map fun k => { k with firstPart := 0 }) = counted total l := by
  induction l generalizing total with
  | nil => rfl
  | cons k r ih => rw [List.map_cons, counted, counted, ih]

/-- What fits the format; nothing has been removed. -/
structure TableFits (t : Trk) : Prop where
  frags : ∀ f ∈ rows t.frags, FragFits f
  keys : ∀ k ∈ rows t.keys, KeyFits k
  parts : ∀ p ∈ rows t.parts, PartFits p
  some : t.frags.pres ≠ 0 ∧ t.keys.pres ≠ 0 ∧ t.parts.pres ≠ 0
  start : t.frags.start = 0 ∧ t.keys.start = 0
  few : t.frags.pres * 13 < 2 ^ 32 ∧ t.keys.pres * 25 < 2 ^ 32 ∧ t.parts.pres * 9 < 2 ^ 32
  codec : rawCodec t.info.codec = false

theorem sum_parts (l : List Key) (h : ∀ k ∈ l, KeyFits k) : (l.map (·.parts)).sum ≤ l.length * 2 ^ 16 := by
  induction l with
  | nil => simp
  | cons k r ih =>
    have h1 := (h k List.mem_cons_self).2.2.2.1
    have h2 := ih fun k hk => h k (List.mem_cons_of_mem _ hk)
    rw [List.map_cons, List.sum_cons, List.length_cons, Nat.succ_mul]
    omega

theorem rows_mem {α : Type} (t : Tab α) (i : Nat) (h : i < t.pres) : t.get (i + t.start) ∈ rows t := by
  rw [rows, List.mem_map]
  exact ⟨i, List.mem_range.mpr h, by rw [Nat.add_comm]⟩

theorem counted_get (l : List Key) (total i : Nat) : (counted total l)[i]?.map (fun k => { k with firstPart := 0 }) =
    l[i]?.map fun k => { k with firstPart := 0 } := by
  induction l generalizing total i with
  | nil => rfl
  | cons k r ih =>
    cases i with
    | zero => rfl
    | succ i => rw [counted, List.getElem?_cons_succ, List.getElem?_cons_succ, ih]

theorem counted_link (t : Tab Key) (h0 : t.start = 0) (i : Nat) (hi : i < t.pres) :
    { (filled Key.zero (counted 0 (rows t))).get i with firstPart := 0 } = { t.get i with firstPart := 0 } := by
  have h := counted_get (rows t) 0 i
  have hr : (rows t)[i]? = some (t.get i) := by
    rw [rows, List.getElem?_map, List.getElem?_range hi, Option.map_some, h0, Nat.zero_add]
  rw [hr, Option.map_some] at h
  obtain ⟨k, hk, hk2⟩ := Option.map_eq_some_iff.mp h
  have hlt : i < (counted 0 (rows t)).length := by
    rcases Nat.lt_or_ge i (counted 0 (rows t)).length with h | h
    · exact h
    · rw [List.getElem?_eq_none h] at hk; cases hk
  rw [Tab.get, Tab.idx, show (filled Key.zero (counted 0 (rows t))).n = (counted 0 (rows t)).length from rfl, if_pos (by omega),
    Nat.mod_eq_of_lt hlt]
  show ({ ((counted 0 (rows t))[i]?.getD Key.zero) with firstPart := 0 } : Key) = _
  rw [hk]
  exact hk2

theorem load_tables (t : Trk) (h : TableFits t) (info : Info) (hc : info.codec = t.info.codec) :
    ∃ u, loadTables info (records (fun i => fragOut (t.frags.get (i + t.frags.start))) t.frags.pres)
      (records (fun i => keyOut (t.keys.get (i + t.frags.start)).bpos (t.keys.get (i + t.keys.start))) t.keys.pres)
      (records (fun i => htob .l (t.keys.get (i + t.keys.start)).size) t.keys.pres)
      (records (fun i => partOut (t.parts.get (i + t.parts.start))) t.parts.pres) = .ok u ∧ u.info = info ∧ SameTables t u := by
  have h1 := records_length (fun i => fragOut (t.frags.get (i + t.frags.start))) 13 (fun i => fragOut_length _) t.frags.pres
  have h2 := records_length (fun i => keyOut (t.keys.get (i + t.frags.start)).bpos (t.keys.get (i + t.keys.start))) 25
    (fun i => keyOut_length _ _) t.keys.pres
  have h3 := records_length (fun i => htob .l (t.keys.get (i + t.keys.start)).size) 4 (fun i => htob_length .l _) t.keys.pres
  have h4 := records_length (fun i => partOut (t.parts.get (i + t.parts.start))) 9 (fun i => partOut_length _) t.parts.pres
  obtain ⟨n1, n2, n3⟩ := h.some
  have ne : ∀ {b : Bytes} {k w : Nat}, b.length = k * w → k ≠ 0 → w ≠ 0 → b ≠ [] := by
    intro b k w e hk hw hb
    rw [hb, List.length_nil] at e
    exact (Nat.mul_ne_zero hk hw) e.symm
  have r1 := readAll_ok (fragIn (records (fun i => fragOut (t.frags.get (i + t.frags.start))) t.frags.pres)) (fun i => t.frags.get (i + t.frags.start))
    t.frags.pres fun i hi => frag_in (fun i => t.frags.get (i + t.frags.start)) _ i hi (h.frags _ (rows_mem _ _ hi))
  have r2 := readAll_ok (keyIn (records (fun i => keyOut (t.keys.get (i + t.frags.start)).bpos (t.keys.get (i + t.keys.start))) t.keys.pres)
    (records (fun i => htob .l (t.keys.get (i + t.keys.start)).size) t.keys.pres)) (fun i => { t.keys.get (i + t.keys.start) with firstPart := 0 })
    t.keys.pres fun i hi => key_in (fun i => t.keys.get (i + t.keys.start)) (fun i => (t.keys.get (i + t.frags.start)).bpos) _ i hi
      (h.keys _ (rows_mem _ _ hi)) (by rw [h.start.1, h.start.2])
  have r3 := readAll_ok (partIn (records (fun i => partOut (t.parts.get (i + t.parts.start))) t.parts.pres)) (fun i => t.parts.get (i + t.parts.start))
    t.parts.pres fun i hi => part_in (fun i => t.parts.get (i + t.parts.start)) _ i hi (h.parts _ (rows_mem _ _ hi))
  generalize records (fun i => fragOut (t.frags.get (i + t.frags.start))) t.frags.pres = b1 at *
  generalize records (fun i => keyOut (t.keys.get (i + t.frags.start)).bpos (t.keys.get (i + t.keys.start))) t.keys.pres = b2 at *
  generalize records (fun i => htob .l (t.keys.get (i + t.keys.start)).size) t.keys.pres = b3 at *
  generalize records (fun i => partOut (t.parts.get (i + t.parts.start))) t.parts.pres = b4 at *
  have hcd : rawCodec info.codec = false := by rw [hc]; exact h.codec
  have hno : ¬(b1 = [] ∨ b2 = [] ∨ b4 = [] ∨ b3 = []) := by
    rintro (e | e | e | e)
    · exact ne h1 n1 (by decide) e
    · exact ne h2 n2 (by decide) e
    · exact ne h4 n3 (by decide) e
    · exact ne h3 n2 (by decide) e
  have e1 : (List.range t.frags.pres).map (fun i => t.frags.get (i + t.frags.start)) = rows t.frags := by
    rw [rows]; exact List.map_congr_left fun i _ => by rw [Nat.add_comm]
  have e3 : (List.range t.parts.pres).map (fun i => t.parts.get (i + t.parts.start)) = rows t.parts := by
    rw [rows]; exact List.map_congr_left fun i _ => by rw [Nat.add_comm]
  have e2 : (List.range t.keys.pres).map (fun i => { t.keys.get (i + t.keys.start) with firstPart := 0 }) =
      (rows t.keys).map fun k => { k with firstPart := 0 } := by
    rw [rows, List.map_map]; exact List.map_congr_left fun i _ => by rw [Function.comp, Nat.add_comm]
  have lk : (rows t.keys).length = t.keys.pres := by rw [rows, List.length_map, List.length_range]
  have hsum := sum_parts _ h.keys
  have hfew := h.few.2.1
  have hn : number 0 ((rows t.keys).map fun k => { k with firstPart := 0 }) = counted 0 (rows t.keys) := by
    rw [number_counted, counted_zero]
    rw [List.map_map, show ((fun k : Key => k.parts) ∘ fun k => { k with firstPart := 0 }) = (fun k : Key => k.parts) from rfl]
    rw [lk] at hsum
    have : t.keys.pres * 2 ^ 16 < 2 ^ 64 := by omega
    omega
  rw [loadTables, hcd, if_neg (by decide), if_neg hno, h1, h2, h4, Nat.mul_div_cancel _ (by decide), Nat.mul_div_cancel _ (by decide),
    Nat.mul_div_cancel _ (by decide), r1, R.bind, r2, R.bind, r3, R.bind, e1, e2, e3, hn]
  have lc : ∀ (l : List Key) total, (counted total l).length = l.length := by
    intro l
    induction l with
    | nil => intro; rfl
    | cons k r ih => intro total; rw [counted, List.length_cons, List.length_cons, ih]
  refine ⟨_, rfl, rfl, rows_filled _ _, rows_filled _ _, rows_filled _ _, ⟨rfl, rfl, rfl⟩, ?_, ?_, ?_, ?_⟩
  · intro i hi
    exact counted_link t.keys h.start.2 i hi
  · show (rows t.frags).length = _
    rw [rows, List.length_map, List.length_range]
  · show (counted 0 (rows t.keys)).length = _
    rw [lc, lk]
  · show (rows t.parts).length = _
    rw [rows, List.length_map, List.length_range]

/-! ## Fields -/

/-- The members of a track have room. -/
theorem room_append (a b : List (Bytes × JVal)) (ha : RoomMembers a) (hb : RoomMembers b) : RoomMembers (a ++ b) := by
  induction a with
  | nil => exact hb
  | cons x r ih => rw [RoomMembers] at ha; rw [List.cons_append, RoomMembers]; exact ⟨ha.1, ha.2.1, ih ha.2.2⟩

theorem room_nil : RoomMembers [] := by rw [RoomMembers]; trivial
theorem room_num {k : Bytes} (n : Nat) {r : List (Bytes × JVal)} (h : 0 < k.length ∧ k.length < 65536) (hr : RoomMembers r) :
    RoomMembers ((k, num n) :: r) := by rw [RoomMembers]; exact ⟨h, by simp [num, Room], hr⟩
theorem room_str {k : Bytes} {x : Bytes} {r : List (Bytes × JVal)} (hx : x.length < 2 ^ 32) (h : 0 < k.length ∧ k.length < 65536)
    (hr : RoomMembers r) : RoomMembers ((k, .str x) :: r) := by rw [RoomMembers]; exact ⟨h, by rw [Room]; exact hx, hr⟩

theorem room_track (skip reID : Bool) (idx : Nat) (t : Trk) (hi : t.info.Fits)
    (hf : t.frags.pres * 13 < 2 ^ 32 ∧ t.keys.pres * 25 < 2 ^ 32 ∧ t.parts.pres * 9 < 2 ^ 32) : RoomMembers (trackMembers skip reID idx t) := by
  have h1 := records_length (fun i => fragOut (t.frags.get (i + t.frags.start))) 13 (fun i => fragOut_length _) t.frags.pres
  have h2 := records_length (fun i => keyOut (t.keys.get (i + t.frags.start)).bpos (t.keys.get (i + t.keys.start))) 25
    (fun i => keyOut_length _ _) t.keys.pres
  have h3 := records_length (fun i => htob .l (t.keys.get (i + t.keys.start)).size) 4 (fun i => htob_length .l _) t.keys.pres
  have h4 := records_length (fun i => partOut (t.parts.get (i + t.parts.start))) 9 (fun i => partOut_length _) t.parts.pres
  have g1 := hi.type.1; have g2 := hi.codec.1; have g3 := hi.lang.1; have g4 := hi.init
  have ht : RoomMembers (tablesVal t) :=
    room_str (by omega) (by decide) (room_str (by omega) (by decide) (room_str (by omega) (by decide) (room_str (by omega) (by decide) room_nil)))
  have hk : RoomMembers (kindVal t.info) := by
    rw [kindVal]
    split
    · exact room_num _ (by decide) (room_num _ (by decide) (room_num _ (by decide) room_nil))
    · split
      · exact room_num _ (by decide) (room_num _ (by decide) (room_num _ (by decide) (room_num _ (by decide) room_nil)))
      · exact room_nil
  unfold trackMembers
  refine room_append _ _ (room_append _ _ (room_append _ _ (room_append _ _ (room_append _ _ (room_append _ _ ?_ ?_) ?_) ?_) ?_) ?_) hk
  · split
    · exact room_nil
    · exact ht
  · exact room_num _ (by decide) room_nil
  · split
    · exact room_num _ (by decide) room_nil
    · exact room_nil
  · exact room_num _ (by decide) (room_num _ (by decide) (room_num _ (by decide) (room_num _ (by decide)
      (room_str (by omega) (by decide) (room_str (by omega) (by decide) room_nil)))))
  · split
    · exact room_str (by omega) (by decide) room_nil
    · exact room_nil
  · exact room_str (by omega) (by decide) room_nil

theorem takeWhile_all (s : Bytes) (h0 : (0 : UInt8) ∉ s) : s.takeWhile (fun x => decide (x ≠ 0)) = s := by
  induction s with
  | nil => rfl
  | cons c r ih =>
    rw [List.mem_cons, not_or] at h0
    rw [List.takeWhile_cons, if_pos (by simpa using Ne.symm h0.1), ih h0.2]

theorem cutText_id (n : Nat) (s : Bytes) (h : s.length < n) (h0 : (0 : UInt8) ∉ s) : cutText n s = s := by
  rw [cutText, List.take_of_length_le (by omega)]
  exact takeWhile_all s h0

section
variable (skip reID : Bool) (idx : Nat) (t : Trk)

theorem at_trackid : member (.obj (trackMembers skip reID idx t)) Names.trackid = some (num (if reID then idx + 1 else t.info.id)) := by
  show List.lookup _ (trackMembers skip reID idx t) = _
  unfold trackMembers tablesVal kindVal
  repeat' split
  all_goals rfl

theorem at_firstms : member (.obj (trackMembers skip reID idx t)) Names.firstms = some (num t.info.firstms) := by
  show List.lookup _ (trackMembers skip reID idx t) = _
  unfold trackMembers tablesVal kindVal
  repeat' split
  all_goals rfl

theorem at_lastms : member (.obj (trackMembers skip reID idx t)) Names.lastms = some (num t.info.lastms) := by
  show List.lookup _ (trackMembers skip reID idx t) = _
  unfold trackMembers tablesVal kindVal
  repeat' split
  all_goals rfl

theorem at_bps : member (.obj (trackMembers skip reID idx t)) Names.bps = some (num t.info.bps) := by
  show List.lookup _ (trackMembers skip reID idx t) = _
  unfold trackMembers tablesVal kindVal
  repeat' split
  all_goals rfl

theorem at_maxbps : member (.obj (trackMembers skip reID idx t)) Names.maxbps = some (num t.info.maxbps) := by
  show List.lookup _ (trackMembers skip reID idx t) = _
  unfold trackMembers tablesVal kindVal
  repeat' split
  all_goals rfl

theorem at_init_ : member (.obj (trackMembers skip reID idx t)) Names.init_ = some (.str t.info.init) := by
  show List.lookup _ (trackMembers skip reID idx t) = _
  unfold trackMembers tablesVal kindVal
  repeat' split
  all_goals rfl

theorem at_codec : member (.obj (trackMembers skip reID idx t)) Names.codec = some (.str t.info.codec) := by
  show List.lookup _ (trackMembers skip reID idx t) = _
  unfold trackMembers tablesVal kindVal
  repeat' split
  all_goals rfl

theorem at_type_ : member (.obj (trackMembers skip reID idx t)) Names.type_ = some (.str t.info.type) := by
  show List.lookup _ (trackMembers skip reID idx t) = _
  unfold trackMembers tablesVal kindVal
  repeat' split
  all_goals rfl

theorem at_lang : member (.obj (trackMembers skip reID idx t)) Names.lang = if sendsLang t.info then some (.str t.info.lang) else none := by
  show List.lookup _ (trackMembers skip reID idx t) = _
  unfold trackMembers tablesVal kindVal
  skip
  repeat' split
  all_goals first | rfl | contradiction

theorem at_rate (h : t.info.type = Names.audio) : member (.obj (trackMembers skip reID idx t)) Names.rate = some (num t.info.rate) := by
  show List.lookup _ (trackMembers skip reID idx t) = _
  unfold trackMembers tablesVal kindVal
  rw [if_pos h]
  repeat' split
  all_goals first | rfl | contradiction

theorem at_size (h : t.info.type = Names.audio) : member (.obj (trackMembers skip reID idx t)) Names.size = some (num t.info.size) := by
  show List.lookup _ (trackMembers skip reID idx t) = _
  unfold trackMembers tablesVal kindVal
  rw [if_pos h]
  repeat' split
  all_goals first | rfl | contradiction

theorem at_channels (h : t.info.type = Names.audio) : member (.obj (trackMembers skip reID idx t)) Names.channels = some (num t.info.channels) := by
  show List.lookup _ (trackMembers skip reID idx t) = _
  unfold trackMembers tablesVal kindVal
  rw [if_pos h]
  repeat' split
  all_goals first | rfl | contradiction

theorem at_width (h : t.info.type = Names.video) : member (.obj (trackMembers skip reID idx t)) Names.width = some (num t.info.width) := by
  show List.lookup _ (trackMembers skip reID idx t) = _
  unfold trackMembers tablesVal kindVal
  rw [if_neg (show ¬t.info.type = Names.audio by rw [h]; decide), if_pos h]
  repeat' split
  all_goals first | rfl | contradiction

theorem at_height (h : t.info.type = Names.video) : member (.obj (trackMembers skip reID idx t)) Names.height = some (num t.info.height) := by
  show List.lookup _ (trackMembers skip reID idx t) = _
  unfold trackMembers tablesVal kindVal
  rw [if_neg (show ¬t.info.type = Names.audio by rw [h]; decide), if_pos h]
  repeat' split
  all_goals first | rfl | contradiction

theorem at_fpks (h : t.info.type = Names.video) : member (.obj (trackMembers skip reID idx t)) Names.fpks = some (num t.info.fpks) := by
  show List.lookup _ (trackMembers skip reID idx t) = _
  unfold trackMembers tablesVal kindVal
  rw [if_neg (show ¬t.info.type = Names.audio by rw [h]; decide), if_pos h]
  repeat' split
  all_goals first | rfl | contradiction

theorem at_efpks (h : t.info.type = Names.video) : member (.obj (trackMembers skip reID idx t)) Names.efpks = some (num t.info.efpks) := by
  show List.lookup _ (trackMembers skip reID idx t) = _
  unfold trackMembers tablesVal kindVal
  rw [if_neg (show ¬t.info.type = Names.audio by rw [h]; decide), if_pos h]
  repeat' split
  all_goals first | rfl | contradiction

theorem at_fragments : member (.obj (trackMembers skip reID idx t)) Names.fragments = 
      if skip then none else some (.str (records (fun i => fragOut (t.frags.get (i + t.frags.start))) t.frags.pres)) := by
  show List.lookup _ (trackMembers skip reID idx t) = _
  unfold trackMembers tablesVal kindVal
  skip
  repeat' split
  all_goals first | rfl | contradiction

theorem at_keys : member (.obj (trackMembers skip reID idx t)) Names.keys = 
      if skip then none else some (.str (records (fun i => keyOut (t.keys.get (i + t.frags.start)).bpos (t.keys.get (i + t.keys.start))) t.keys.pres)) := by
  show List.lookup _ (trackMembers skip reID idx t) = _
  unfold trackMembers tablesVal kindVal
  skip
  repeat' split
  all_goals first | rfl | contradiction

theorem at_keysizes : member (.obj (trackMembers skip reID idx t)) Names.keysizes = 
      if skip then none else some (.str (records (fun i => htob .l (t.keys.get (i + t.keys.start)).size) t.keys.pres)) := by
  show List.lookup _ (trackMembers skip reID idx t) = _
  unfold trackMembers tablesVal kindVal
  skip
  repeat' split
  all_goals first | rfl | contradiction

theorem at_parts : member (.obj (trackMembers skip reID idx t)) Names.parts = 
      if skip then none else some (.str (records (fun i => partOut (t.parts.get (i + t.parts.start))) t.parts.pres)) := by
  show List.lookup _ (trackMembers skip reID idx t) = _
  unfold trackMembers tablesVal kindVal
  skip
  repeat' split
  all_goals first | rfl | contradiction

end

theorem sendsLang_iff (i : Info) : sendsLang i = true ↔ i.lang ≠ [] ∧ i.lang ≠ Names.und := by
  rw [sendsLang, Bool.and_eq_true, decide_eq_true_eq, decide_eq_true_eq]
  exact ⟨fun h => ⟨fun e => h.1 (by rw [e]; rfl), h.2⟩, fun h => ⟨fun e => h.1 (List.length_eq_zero_iff.mp e), h.2⟩⟩

theorem load_info (skip reID : Bool) (idx : Nat) (hx : idx + 1 < 2 ^ 32) (t : Trk) (hi : t.info.Fits)
    (hf : t.frags.pres * 13 < 2 ^ 32 ∧ t.keys.pres * 25 < 2 ^ 32 ∧ t.parts.pres * 9 < 2 ^ 32) (buf : Bytes) (s : Scan)
    (hs : Views bits buf s (.obj (trackMembers skip reID idx t))) (n : Nat) (hn : (pack bits (.obj (trackMembers skip reID idx t))).length < n) :
    ∃ i, loadInfo n buf s = .ok i ∧ SameInfo t.info i (if reID then idx + 1 else t.info.id) := by
  have hv : Room (.obj (trackMembers skip reID idx t)) := by rw [Room]; exact room_track skip reID idx t hi hf
  have g1 := hi.type.1; have g2 := hi.codec.1; have g3 := hi.lang.1; have g4 := hi.init
  have b1 := hi.bps; have b2 := hi.maxbps; have b3 := hi.id
  have c1 := strOf_some hv hs hn (by decide) (at_codec skip reID idx t) (by omega)
  have c2 := strOf_some hv hs hn (by decide) (at_type_ skip reID idx t) (by omega)
  have c3 := strOf_some hv hs hn (by decide) (at_init_ skip reID idx t) (by omega)
  have c4 : strOf n buf s Names.lang = .ok (if t.info.lang = [117, 110, 100] then [] else t.info.lang) := by
    have hl := at_lang skip reID idx t
    by_cases h : sendsLang t.info = true
    · rw [if_pos h] at hl
      rw [if_neg (show ¬t.info.lang = [117, 110, 100] from ((sendsLang_iff _).mp h).2)]
      exact strOf_some hv hs hn (by decide) hl (by omega)
    · rw [if_neg h] at hl
      rw [strOf_none hv hs hn (by decide) hl]
      rw [sendsLang_iff, Classical.not_and_iff_not_or_not] at h
      split
      · rfl
      · rename_i h'
        rcases h with h | h
        · rw [Classical.not_not.mp h]
        · exact absurd (Classical.not_not.mp h) h'
  have hid : (if reID then idx + 1 else t.info.id) < 2 ^ 32 := by split <;> omega
  have c5 := intOf_some hv hs hn (by decide) (at_trackid skip reID idx t) (by omega)
  have c6 := intOf_some hv hs hn (by decide) (at_firstms skip reID idx t) hi.firstms
  have c7 := intOf_some hv hs hn (by decide) (at_lastms skip reID idx t) hi.lastms
  have c8 := intOf_some hv hs hn (by decide) (at_bps skip reID idx t) (by omega)
  have c9 := intOf_some hv hs hn (by decide) (at_maxbps skip reID idx t) (by omega)
  have t1 := cutText_id 32 _ g1 hi.type.2
  have t2 := cutText_id 32 _ g2 hi.codec.2
  have t3 : cutText 4 (if t.info.lang = [117, 110, 100] then [] else t.info.lang) = if t.info.lang = [117, 110, 100] then [] else t.info.lang := by
    split
    · rfl
    · exact cutText_id 4 _ g3 hi.lang.2
  have t4 : t.info.init.take (t.info.init.length % 2 ^ 16) = t.info.init := by
    rw [Nat.mod_eq_of_lt g4, List.take_length]
  unfold loadInfo
  rw [c1, R.bind, c2, R.bind, c3, R.bind, c4, R.bind, c5, R.bind, c6, R.bind, c7, R.bind, c8, R.bind, c9, R.bind, t1, t2, t3, t4,
    Nat.mod_eq_of_lt hid, Nat.mod_eq_of_lt b1, Nat.mod_eq_of_lt b2]
  dsimp only
  by_cases hvid : t.info.type = Names.video
  · have w1 := hi.width; have w2 := hi.height; have w3 := hi.fpks; have w4 := hi.efpks
    rw [if_pos hvid, intOf_some hv hs hn (by decide) (at_width skip reID idx t hvid) (by omega), R.bind,
      intOf_some hv hs hn (by decide) (at_height skip reID idx t hvid) (by omega), R.bind,
      intOf_some hv hs hn (by decide) (at_fpks skip reID idx t hvid) (by omega), R.bind,
      intOf_some hv hs hn (by decide) (at_efpks skip reID idx t hvid) (by omega), R.bind, Nat.mod_eq_of_lt w1, Nat.mod_eq_of_lt w2,
      Nat.mod_eq_of_lt w3, Nat.mod_eq_of_lt w4]
    exact ⟨_, rfl, rfl, rfl, rfl, rfl, rfl, rfl, rfl, rfl, rfl, fun h => absurd (hvid.symm.trans h) (by decide), fun _ => ⟨rfl, rfl, rfl, rfl⟩⟩
  · rw [if_neg hvid]
    by_cases haud : t.info.type = Names.audio
    · have w1 := hi.rate; have w2 := hi.channels; have w3 := hi.size
      rw [if_pos haud, intOf_some hv hs hn (by decide) (at_rate skip reID idx t haud) (by omega), R.bind,
        intOf_some hv hs hn (by decide) (at_channels skip reID idx t haud) (by omega), R.bind,
        intOf_some hv hs hn (by decide) (at_size skip reID idx t haud) (by omega), R.bind, Nat.mod_eq_of_lt w1, Nat.mod_eq_of_lt w2,
        Nat.mod_eq_of_lt w3]
      exact ⟨_, rfl, rfl, rfl, rfl, rfl, rfl, rfl, rfl, rfl, rfl, fun _ => ⟨rfl, rfl, rfl⟩, fun h => absurd h hvid⟩
    · rw [if_neg haud]
      exact ⟨_, rfl, rfl, rfl, rfl, rfl, rfl, rfl, rfl, rfl, rfl, fun h => absurd h haud, fun h => absurd h hvid⟩

/-- A track is loaded as it was, with its tables unless they are left out. -/
theorem load_track (skip reID : Bool) (idx : Nat) (hx : idx + 1 < 2 ^ 32) (t : Trk) (hi : t.info.Fits) (hf : TableFits t) (buf : Bytes) (s : Scan)
    (hs : Views bits buf s (.obj (trackMembers skip reID idx t))) (n : Nat) (hn : (pack bits (.obj (trackMembers skip reID idx t))).length < n) :
    ∃ u, loadTrack n buf s = .ok u ∧ SameInfo t.info u.info (if reID then idx + 1 else t.info.id) ∧ (skip = false → SameTables t u) := by
  have hv : Room (.obj (trackMembers skip reID idx t)) := by rw [Room]; exact room_track skip reID idx t hi hf.few
  obtain ⟨i, hi', hsame⟩ := load_info skip reID idx hx t hi hf.few buf s hs n hn
  unfold loadTrack
  rw [has_eq hv hs hn (by decide), R.bind, has_eq hv hs hn (by decide), R.bind, has_eq hv hs hn (by decide), R.bind,
    has_eq hv hs hn (by decide), R.bind, hi', R.bind, at_fragments, at_keys, at_parts, at_keysizes]
  have hraw : rawCodec i.codec = false := by rw [hsame.codec]; exact hf.codec
  cases skip
  · simp only [Bool.false_eq_true, if_false, Option.isSome_some, Bool.and_self, if_true]
    have h1 := records_length (fun i => fragOut (t.frags.get (i + t.frags.start))) 13 (fun i => fragOut_length _) t.frags.pres
    have h2 := records_length (fun i => keyOut (t.keys.get (i + t.frags.start)).bpos (t.keys.get (i + t.keys.start))) 25
      (fun i => keyOut_length _ _) t.keys.pres
    have h3 := records_length (fun i => htob .l (t.keys.get (i + t.keys.start)).size) 4 (fun i => htob_length .l _) t.keys.pres
    have h4 := records_length (fun i => partOut (t.parts.get (i + t.parts.start))) 9 (fun i => partOut_length _) t.parts.pres
    obtain ⟨l1, l2, l3⟩ := hf.few
    obtain ⟨s1, m1, g1⟩ := getStr_some hv hs hn (name := Names.fragments) (by decide) (at_fragments false reID idx t) (by omega)
    obtain ⟨s2, m2, g2⟩ := getStr_some hv hs hn (name := Names.keys) (by decide) (at_keys false reID idx t) (by omega)
    obtain ⟨s3, m3, g3⟩ := getStr_some hv hs hn (name := Names.keysizes) (by decide) (at_keysizes false reID idx t) (by omega)
    obtain ⟨s4, m4, g4⟩ := getStr_some hv hs hn (name := Names.parts) (by decide) (at_parts false reID idx t) (by omega)
    rw [m1, R.bind, g1, R.bind, m2, R.bind, g2, R.bind, m3, R.bind, g3, R.bind, m4, R.bind, g4, R.bind]
    obtain ⟨u, hu, hui, hut⟩ := load_tables t hf i hsame.codec
    exact ⟨u, hu, by rw [hui]; exact hsame, fun _ => hut⟩
  · simp only [if_true, Option.isSome_none, Bool.and_self, Bool.false_eq_true, if_false, hraw]
    exact ⟨_, rfl, hsame, fun h => absurd h (by decide)⟩

end Verif.Dtsc
