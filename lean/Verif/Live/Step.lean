import Verif.Live.Lemmas

/-! # A packet is buffered -/
namespace Verif.Live
open Verif.Index (Tab sub64 sub64_eq Track SameTrack)
open Verif.Page (Pack packLen)
open Spec (keyTime bytes)

theorem noteKey_pages (time : Nat) (l : Live) (i : Nat) : (noteKey time l i).pages = l.pages.set i (noted time) := rfl

theorem get_set_keep (t : Tab Rec) (i : Nat) (f : Rec → Rec) (hf : ∀ r, (f r).firstKey = r.firstKey) (j : Nat) :
    ((t.set i f).get j).firstKey = (t.get j).firstKey := by
  show (if t.idx j = t.idx i then f (t.slot (t.idx j)) else t.slot (t.idx j)).firstKey = _
  split
  · exact hf _
  · rfl

theorem find_loop_set (t : Tab Rec) (i : Nat) (f : Rec → Rec) (hf : ∀ r, (f r).firstKey = r.firstKey) (num k j : Nat) :
    findLoop (t.set i f) num k j = findLoop t num k j := by
  induction k generalizing j with
  | zero => rfl
  | succ k ih => unfold findLoop; rw [get_set_keep t i f hf, ih]

theorem find_set (t : Tab Rec) (i : Nat) (f : Rec → Rec) (hf : ∀ r, (f r).firstKey = r.firstKey) (num : Nat) :
    findPage (t.set i f) num = findPage t num := find_loop_set t i f hf num _ _

theorem room_pages {l : Live} (hp : l.pages.Ok) (h1 : l.track.parts.Ok) (h2 : l.track.keys.Ok) (h3 : l.track.frags.Ok) :
    Tab.Same l.pages (roomPages l).pages ∧ (roomPages l).pages.fin - (roomPages l).pages.del < (roomPages l).pages.n ∧
    SameTrack l.track (roomPages l).track ∧ (roomPages l).data = l.data := by
  have p1 := hp.pos; have p2 := hp.le; have p3 := hp.room; have p4 := hp.small
  unfold roomPages
  rw [sub64_eq p2 (by omega)]
  split
  · obtain ⟨s, n⟩ := Tab.resize_same (z := Rec.zero) hp (m := l.pages.n * 2) (by omega)
    refine ⟨s, ?_, Index.resize_track h1 h2 h3 (Nat.le_refl _) (Nat.le_refl _) (Nat.le_refl _), rfl⟩
    show (Tab.resize Rec.zero l.pages (l.pages.n * 2)).fin - (Tab.resize Rec.zero l.pages (l.pages.n * 2)).del <
      (Tab.resize Rec.zero l.pages (l.pages.n * 2)).n
    rw [s.fin, s.del, n]; omega
  · exact ⟨.rfl _, by omega, .rfl _, rfl⟩

/-- The record of a page that was just made. -/
def fresh (num time : Nat) (r : Rec) : Rec :=
  { r with firstKey := num % 2 ^ 32, firstTime := time, size := pageSize, keyCount := 0, avail := 0 }

/-- A new page can be opened. -/
theorem open_page {l : Live} {G : List (List (List Pack))} {m : Nat} (h : PInv l.pages l.cur l.data G m) (h1 : l.track.parts.Ok) (h2 : l.track.keys.Ok)
    (h3 : l.track.frags.Ok) (hs : G.flatten.length + 2 < 2 ^ 32) (time : Nat) :
    bufferStart (addPage (roomPages l) G.flatten.length time) G.flatten.length =
      ({ track := (roomPages l).track
         cur := some G.flatten.length
         data := fun x => if x = G.flatten.length then some [] else l.data x
         pages := (((roomPages l).pages.set G.length (fresh G.flatten.length time)).add).set G.length fun r => { r with avail := 0 } }, true) := by
  obtain ⟨s, hroom, -, hdata⟩ := room_pages h.ok h1 h2 h3
  have ok1 := s.ok h.ok
  have hfin := h.fin; have hdel := h.del
  have sfin := s.fin; have sdel := s.del
  have hgl := len_le h.ne
  have hm : m ≤ G.length := by
    by_cases hg : G = []
    · rw [h.zero hg]; omega
    · exact Nat.le_of_lt (h.left hg)
  have hp : (addPage (roomPages l) G.flatten.length time).pages = ((roomPages l).pages.set G.length (fresh G.flatten.length time)).add := by
    show ((roomPages l).pages.set (roomPages l).pages.fin (fresh G.flatten.length time)).add = _
    rw [sfin, hfin]
  have oks := ok1.set G.length (fresh G.flatten.length time)
  have e := Tab.add_eq oks (by simpa using hroom) (by simp; omega)
  have hget : ∀ i, m ≤ i → i < G.length → (((roomPages l).pages.set G.length (fresh G.flatten.length time)).add).get i = l.pages.get i := by
    intro i h1 h2
    rw [Tab.get_add, Tab.get_set_ne ok1.pos _ (by omega) (by omega) (by omega)]
    exact s.get i (by omega) (by omega)
  have hgetL : (((roomPages l).pages.set G.length (fresh G.flatten.length time)).add).get G.length =
      fresh G.flatten.length time ((roomPages l).pages.get G.length) := by
    rw [Tab.get_add, Tab.get_set]
  have hTd : (((roomPages l).pages.set G.length (fresh G.flatten.length time)).add).del = m := by rw [e]; simp; omega
  have hTf : (((roomPages l).pages.set G.length (fresh G.flatten.length time)).add).fin = G.length + 1 := by rw [e]; simp; omega
  have hfind : findPage (((roomPages l).pages.set G.length (fresh G.flatten.length time)).add) G.flatten.length = some G.length := by
    unfold findPage
    rw [hTd, hTf]
    refine find_loop _ _ _ _ _ hm (by omega) ?_ ?_
    · rw [hgetL]; exact Nat.mod_eq_of_lt (by omega)
    · intro j h1 h2
      rw [hget j h1 h2, (h.recs j _ h1 (List.getElem?_eq_getElem h2)).firstKey]
      have := startOf_lt h.ne h2 h2
      have h3 : startOf G G.length = G.flatten.length := by unfold startOf; rw [List.take_length]
      omega
  have hbuf : isBuffered (((roomPages l).pages.set G.length (fresh G.flatten.length time)).add) G.flatten.length = false := by
    unfold isBuffered
    rw [hTd, hTf, not_buffered]; · rfl
    intro j h1 h2
    by_cases hj : j < G.length
    · rw [hget j h1 hj]
      have hr := h.recs j _ h1 (List.getElem?_eq_getElem hj)
      rw [hr.firstKey, hr.keyCount, ← startOf_succ (List.getElem?_eq_getElem hj)]
      exact .inl (startOf_le G _)
    · have : j = G.length := by omega
      subst this
      rw [hgetL]; exact .inr (.inl rfl)
  unfold bufferStart
  rw [hp, hfind]
  dsimp only
  rw [hbuf]
  simp only [Bool.false_eq_true, if_false]
  refine congrArg (·, true) ?_
  show Live.mk _ _ _ _ = Live.mk _ _ _ _
  congr 1
  show (fun x => if x = G.flatten.length then some [] else (roomPages l).data x) = _
  rw [hdata]

/-- The packet goes on the page that is open. -/
theorem put_page {l : Live} {num i : Nat} {p : Pack} {old : List Pack} (hc : l.cur = some num) (hf : findPage l.pages num = some i)
    (hd : l.data num = some old) (hsz : (l.pages.get i).size = pageSize) (hfit : (l.pages.get i).avail + packLen p ≤ pageSize) :
    putPacket l p = (Index.update l.track (entry p)).map fun t =>
      { track := t
        cur := l.cur
        pages := l.pages.set i fun r => { r with avail := (r.avail + packLen p) % 2 ^ 32 }
        data := fun x => if x = num then some (old ++ [p]) else l.data x } := by
  unfold putPacket
  rw [hc]
  dsimp only
  rw [if_neg (by rw [hd]; simp)]
  have : bufferNext l num p = { l with
        pages := l.pages.set i fun r => { r with avail := (r.avail + packLen p) % 2 ^ 32 }
        data := fun x => if x = num then some (old ++ [p]) else l.data x } := by
    unfold bufferNext
    rw [hf]
    dsimp only [Option.getD_some]
    rw [if_neg ?_]
    · show Live.mk _ _ _ _ = Live.mk _ _ _ _
      congr 1
      funext x
      by_cases hx : x = num
      · subst hx; rw [if_pos rfl, if_pos rfl, hd]; rfl
      · rw [if_neg hx, if_neg hx]
    · rw [hsz]
      unfold pageSize at hfit ⊢
      omega
  rw [this, hc]

/-- The keys of a page after another packet. -/
theorem page_extend {l : Live} {F : List (List (List Pack))} {b : List (List Pack)} {g : List Pack} {m : Nat} {p : Pack}
    (h : PInv l.pages l.cur l.data (F ++ [b ++ [g]]) m) (hbig : bytes (g ++ [p]) ≤ pageSize - flipSize) :
    ∃ pages data, putPacket l p = ((Index.update l.track (entry p)).map fun t => (⟨t, pages, l.cur, data⟩ : Live)) ∧
      PInv pages l.cur data (F ++ [b ++ [g ++ [p]]]) m := by
  have hm : m ≤ F.length := by have := h.left (by simp); simp at this; omega
  have hr := h.recs F.length (b ++ [g]) hm (by simp)
  have hdt := h.data F.length (b ++ [g]) hm (by simp)
  have hfl := h.fill F b g rfl
  have hg := h.nek (b ++ [g]) (by simp) g (by simp)
  rw [startOf_len] at hr hdt
  have hav := hr.avail
  rw [List.flatten_append, bytes_append] at hav
  simp only [List.flatten_cons, List.flatten_nil, List.append_nil] at hav
  rw [bytes_append] at hbig
  have hone : bytes [p] = packLen p := by simp [bytes]
  have hps : flipSize ≤ pageSize := by decide
  have hp32 : pageSize < 2 ^ 32 := by decide
  refine ⟨_, _, put_page (h.cur F (b ++ [g]) rfl) h.findLast hdt hr.size (by omega), ?_⟩
  refine h.last ?_ (by simp) ?_ ?_ ?_ ?_
  · refine ⟨hr.firstKey, by rw [hr.keyCount]; simp, ?_, hr.size, ?_, ?_⟩
    · show ((l.pages.get F.length).avail + packLen p) % 2 ^ 32 = _
      rw [Nat.mod_eq_of_lt (by omega), hav]
      simp only [List.flatten_append, List.flatten_cons, List.flatten_nil, List.append_nil, bytes_append]
      omega
    · show (l.pages.get F.length).firstTime = _
      rw [hr.firstTime]
      cases b with
      | nil => obtain ⟨q, r, rfl⟩ : ∃ p r, g = p :: r := ⟨_, _, (List.cons_head_tail hg).symm⟩; rfl
      | cons x r => rfl
    · show (l.pages.get F.length).lastKeyTime = _
      rw [hr.lastKeyTime]
      obtain ⟨q, r, rfl⟩ : ∃ p r, g = p :: r := ⟨_, _, (List.cons_head_tail hg).symm⟩
      simp [keyTime]
  · intro x hx
    rcases List.mem_append.mp hx with hx | hx
    · exact h.nek (b ++ [g]) (by simp) x (by simp [hx])
    · simp at hx; subst hx; simp
  · simp
  · intro x hx
    exact if_neg hx
  · intro c g' he
    obtain ⟨rfl, -⟩ := List.append_inj' he (by simp)
    exact hfl

/-- A key on the page that is open. -/
theorem page_key {l : Live} {F : List (List (List Pack))} {b : List (List Pack)} {m : Nat} {p : Pack}
    (h : PInv l.pages l.cur l.data (F ++ [b]) m) (hbig : bytes [p] ≤ pageSize - flipSize) (hs : (F ++ [b]).flatten.length + 2 < 2 ^ 32)
    (hno : flips l F.length p.time = false) :
    startKey l p.time = (noteKey p.time l F.length, true) ∧
    ∃ pages data, putPacket (noteKey p.time l F.length) p = ((Index.update l.track (entry p)).map fun t => (⟨t, pages, l.cur, data⟩ : Live)) ∧
      PInv pages l.cur data (F ++ [b ++ [[p]]]) m := by
  have hm : m ≤ F.length := by have := h.left (by simp); simp at this; omega
  have hr := h.recs F.length b hm (by simp)
  have hdt := h.data F.length b hm (by simp)
  rw [startOf_len] at hr hdt
  have hav := hr.avail
  have hb := h.ne b (by simp)
  have hone : bytes [p] = packLen p := by simp [bytes]
  have hps : flipSize ≤ pageSize := by decide
  have hp32 : pageSize < 2 ^ 32 := by decide
  have hcur := h.cur F b rfl
  have hfl : bytes b.flatten ≤ flipSize := by
    unfold flips at hno
    simp only [Bool.or_eq_false_iff, decide_eq_false_iff_not, Nat.not_lt] at hno
    omega
  refine ⟨?_, ?_⟩
  · unfold startKey
    rw [hcur]
    dsimp only
    rw [h.findLast, Option.getD_some, hno]
    simp
  · refine ⟨_, _, put_page (l := noteKey p.time l F.length) (i := F.length) hcur ?_ hdt ?_ ?_, ?_⟩
    · rw [noteKey_pages, find_set _ _ (noted p.time) (fun r => rfl)]; exact h.findLast
    · rw [noteKey_pages, Tab.get_set]; exact hr.size
    · rw [noteKey_pages, Tab.get_set]
      show (l.pages.get F.length).avail + _ ≤ _
      omega
    · rw [noteKey_pages, Index.set_set]
      refine h.last ?_ (by simp) ?_ ?_ ?_ ?_
      · refine ⟨hr.firstKey, ?_, ?_, hr.size, ?_, ?_⟩
        · show ((l.pages.get F.length).keyCount + 1) % 2 ^ 32 = _
          rw [hr.keyCount, Nat.mod_eq_of_lt (by simp at hs; omega)]; simp
        · show ((l.pages.get F.length).avail + packLen p) % 2 ^ 32 = _
          rw [Nat.mod_eq_of_lt (by omega), hav]
          simp only [List.flatten_append, List.flatten_cons, List.flatten_nil, List.append_nil, bytes_append]
          omega
        · show (l.pages.get F.length).firstTime = _
          rw [hr.firstTime]
          cases b with
          | nil => exact absurd rfl hb
          | cons x r => rfl
        · show p.time = _
          simp [keyTime]
      · intro x hx
        rcases List.mem_append.mp hx with hx | hx
        · exact h.nek b (by simp) x hx
        · simp at hx; subst hx; simp
      · simp
      · intro x hx
        rw [if_neg hx]; rfl
      · intro c g' he
        obtain ⟨rfl, -⟩ := List.append_inj' he (by simp)
        exact hfl

/-- A key on a new page. -/
theorem page_new {l : Live} {G : List (List (List Pack))} {m : Nat} {p : Pack}
    (h : PInv l.pages l.cur l.data G m) (h1 : l.track.parts.Ok) (h2 : l.track.keys.Ok) (h3 : l.track.frags.Ok)
    (hbig : bytes [p] ≤ pageSize - flipSize) (hs : G.flatten.length + 2 < 2 ^ 32)
    (hstart : (G = [] ∧ firstNumber l p.time = 0) ∨ ∃ F b, G = F ++ [b] ∧ flips l F.length p.time = true) :
    ∃ u, startKey l p.time = (u, true) ∧ u.track = (roomPages l).track ∧
    ∃ pages data, putPacket u p = ((Index.update (roomPages l).track (entry p)).map fun t => (⟨t, pages, some G.flatten.length, data⟩ : Live)) ∧
      PInv pages (some G.flatten.length) data (G ++ [[[p]]]) m := by
  obtain ⟨s, hroom, -, hdata⟩ := room_pages h.ok h1 h2 h3
  have ho := open_page h h1 h2 h3 hs p.time
  have hone : bytes [p] = packLen p := by simp [bytes]
  have hps : flipSize ≤ pageSize := by decide
  have hp32 : pageSize < 2 ^ 32 := by decide
  have hfin := h.fin
  have hstart : startKey l p.time = (noteKey p.time (bufferStart (addPage (roomPages l) G.flatten.length p.time) G.flatten.length).1 G.length, true) := by
    unfold startKey
    rcases hstart with ⟨hg, hn⟩ | ⟨F, b, hg, hfl⟩
    · have hn' : firstNumber l p.time = G.flatten.length := by rw [hn, hg]; rfl
      rw [h.none hg]
      dsimp only
      rw [hn', ho, hfin]; rfl
    · subst hg
      have hm : m ≤ F.length := by have := h.left (by simp); simp at this; omega
      have hr := h.recs F.length b hm (by simp)
      rw [startOf_len] at hr
      have hn : (l.pages.get F.length).firstKey + (l.pages.get F.length).keyCount = (F ++ [b]).flatten.length := by
        rw [hr.firstKey, hr.keyCount]; simp
      rw [h.cur F b rfl]
      dsimp only
      rw [h.findLast, Option.getD_some, hfl, if_pos rfl, hn, ho, hfin]; rfl
  have hft : ((((roomPages l).pages.set G.length (fresh G.flatten.length p.time)).add).get G.length).firstKey = G.flatten.length := by
    rw [Tab.get_add, Tab.get_set]; exact Nat.mod_eq_of_lt (by omega)
  refine ⟨_, hstart, by rw [ho]; rfl, ?_⟩
  rw [ho]
  refine ⟨_, _, put_page (l := noteKey p.time _ G.length) (num := G.flatten.length) (i := G.length) (old := []) rfl ?_ ?_ ?_ ?_, ?_⟩
  · rw [noteKey_pages, find_set _ _ (noted p.time) (fun r => rfl)]
    dsimp only
    rw [find_set _ _ (fun r => { r with avail := 0 }) (fun r => rfl)]
    have hb := congrArg (fun x => x.2) ho
    dsimp only at hb
    have ok1 := s.ok h.ok
    have hdel := h.del
    have sfin := s.fin; have sdel := s.del
    have hgl := len_le h.ne
    have hm : m ≤ G.length := by
      by_cases hg : G = []
      · rw [h.zero hg]; omega
      · exact Nat.le_of_lt (h.left hg)
    have oks := ok1.set G.length (fresh G.flatten.length p.time)
    have e := Tab.add_eq oks (by simpa using hroom) (by simp; omega)
    unfold findPage
    refine find_loop _ _ _ _ _ (by rw [e]; simp; omega) (by rw [e]; simp; omega) hft ?_
    intro j h1 h2
    have h1 : m ≤ j := by rw [e] at h1; simp at h1; omega
    rw [Tab.get_add, Tab.get_set_ne ok1.pos _ (by omega) (by omega) (by omega), s.get j (by omega) (by omega),
      (h.recs j _ h1 (List.getElem?_eq_getElem h2)).firstKey]
    have := startOf_lt h.ne h2 h2
    have h3 : startOf G G.length = G.flatten.length := by unfold startOf; rw [List.take_length]
    omega
  · show (if G.flatten.length = G.flatten.length then some [] else _) = _
    rw [if_pos rfl]
  · rw [noteKey_pages, Tab.get_set, Tab.get_set, Tab.get_add, Tab.get_set]; rfl
  · rw [noteKey_pages, Tab.get_set, Tab.get_set, Tab.get_add, Tab.get_set]
    show 0 + _ ≤ _
    omega
  · rw [noteKey_pages]
    dsimp only
    rw [Index.set_set, Index.set_set]
    refine h.push s hroom hs ?_ (by simp) (by simp) (by simp) ?_ ?_
    · refine ⟨Nat.mod_eq_of_lt (by omega), rfl, ?_, rfl, rfl, rfl⟩
      show (0 + packLen p) % 2 ^ 32 = _
      rw [Nat.mod_eq_of_lt (by omega)]; simp [bytes]
    · intro x hx
      show (if x = _ then _ else if x = _ then _ else _) = _
      rw [if_neg hx, if_neg hx]
    · intro c g he
      have : c = [] := by
        cases c with
        | nil => rfl
        | cons y r => simp at he
      subst this; simp [bytes]

end Verif.Live
