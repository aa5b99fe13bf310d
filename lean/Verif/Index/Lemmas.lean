import Verif.Index.Spec

/-! # Facts about tables and entries -/
namespace Verif.Index

theorem sub64_eq {a b : Nat} (h : b ≤ a) (ha : a < 2 ^ 64) : sub64 a b = a - b := by
  unfold sub64; omega

namespace Tab
variable {α : Type}

/-- The state that tables are in. -/
structure Ok (t : Tab α) : Prop where
  pos : 0 < t.n
  le : t.del ≤ t.fin
  room : t.fin - t.del ≤ t.n
  pres : t.pres = t.fin - t.del
  start : t.start ≤ t.del
  small : t.fin < 2 ^ 32

theorem idx_ne {t : Tab α} (h : 0 < t.n) {i j : Nat} (hij : i ≠ j) (h1 : i < j + t.n) (h2 : j < i + t.n) : t.idx i ≠ t.idx j := by
  unfold idx
  rw [if_pos (by omega), if_pos (by omega)]
  intro e
  rcases Nat.lt_or_gt_of_ne hij with hl | hl
  · have := Nat.sub_mod_eq_zero_of_mod_eq e.symm
    rw [Nat.mod_eq_of_lt (by omega)] at this; omega
  · have := Nat.sub_mod_eq_zero_of_mod_eq e
    rw [Nat.mod_eq_of_lt (by omega)] at this; omega

@[simp] theorem set_n (t : Tab α) (i f) : (t.set i f).n = t.n := rfl
@[simp] theorem set_del (t : Tab α) (i f) : (t.set i f).del = t.del := rfl
@[simp] theorem set_fin (t : Tab α) (i f) : (t.set i f).fin = t.fin := rfl
@[simp] theorem set_pres (t : Tab α) (i f) : (t.set i f).pres = t.pres := rfl
@[simp] theorem set_start (t : Tab α) (i f) : (t.set i f).start = t.start := rfl

theorem get_set (t : Tab α) (i f) : (t.set i f).get i = f (t.get i) := by
  show (if t.idx i = t.idx i then f (t.slot (t.idx i)) else t.slot (t.idx i)) = _
  rw [if_pos rfl]; rfl

theorem get_set_ne {t : Tab α} (h : 0 < t.n) {i j : Nat} (f) (hij : j ≠ i) (h1 : i < j + t.n) (h2 : j < i + t.n) :
    (t.set i f).get j = t.get j := by
  show (if _ = _ then _ else _) = _
  rw [if_neg]; · rfl
  exact idx_ne (t := t) h hij h2 h1

theorem Ok.set {t : Tab α} (h : t.Ok) (i f) : (t.set i f).Ok := ⟨h.pos, h.le, h.room, h.pres, h.start, h.small⟩

/-- A record that is there, after another one was written. -/
theorem Ok.get_other {t : Tab α} (h : t.Ok) {i j : Nat} (f) (hij : j ≠ i) (hj : t.del ≤ j ∧ j < t.fin) (hi : t.del ≤ i)
    (hi' : i < t.del + t.n) : (t.set i f).get j = t.get j := by
  have := h.room
  exact get_set_ne h.pos f hij (by omega) (by omega)

theorem add_eq {t : Tab α} (h : t.Ok) (hr : t.fin - t.del < t.n) (hs : t.fin + 1 < 2 ^ 32) :
    t.add = { t with pres := t.fin + 1 - t.del, fin := t.fin + 1 } := by
  have := h.le; have := h.pres
  unfold add
  rw [sub64_eq (by omega) (by omega), if_neg (by omega), Nat.mod_eq_of_lt (a := t.fin + 1) (by omega),
    Nat.mod_eq_of_lt (a := t.pres + 1) (by omega), show t.pres + 1 = t.fin + 1 - t.del by omega]

theorem Ok.add {t : Tab α} (h : t.Ok) (hr : t.fin - t.del < t.n) (hs : t.fin + 1 < 2 ^ 32) : t.add.Ok := by
  have := h.le; have := h.pres
  rw [add_eq h hr hs]
  exact ⟨h.pos, by dsimp only; omega, by dsimp only; omega, rfl, h.start, hs⟩

theorem get_add (t : Tab α) (i) : t.add.get i = t.get i := rfl

theorem drop_eq {t : Tab α} (h : t.Ok) {k : Nat} (hk : k ≤ t.fin - t.del) :
    t.drop k = some { t with start := t.start + k, del := t.del + k, pres := t.pres - k } := by
  have := h.le; have := h.pres; have := h.start; have := h.small
  unfold drop
  rw [if_pos (by omega), Nat.mod_eq_of_lt (a := t.start + k) (by omega), Nat.mod_eq_of_lt (a := t.del + k) (by omega)]

theorem Ok.drop {t t' : Tab α} (h : t.Ok) {k : Nat} (hk : k ≤ t.fin - t.del) (e : t.drop k = some t') :
    t'.Ok ∧ t'.del = t.del + k ∧ t'.fin = t.fin ∧ ∀ i, t'.get i = t.get i := by
  have := h.le; have := h.pres; have := h.start; have := h.room
  rw [drop_eq h hk] at e; cases e
  exact ⟨⟨h.pos, by dsimp only; omega, by dsimp only; omega, by dsimp only; omega, by dsimp only; omega, h.small⟩, rfl, rfl,
    fun i => rfl⟩

/-! ### Resizing -/

theorem copy_fields (old : Tab α) (k i : Nat) (t : Tab α) : (copy old k i t).n = t.n ∧ (copy old k i t).del = t.del ∧
    (copy old k i t).fin = t.fin ∧ (copy old k i t).pres = t.pres ∧ (copy old k i t).start = t.start := by
  induction k generalizing i t with
  | zero => exact ⟨rfl, rfl, rfl, rfl, rfl⟩
  | succ k ih => exact ih (i + 1) (t.set i _)

theorem copy_keeps (old : Tab α) (k i : Nat) (t : Tab α) (hn : 0 < t.n) {j : Nat} (hj : j < i) (hk : i + k ≤ j + t.n) :
    (copy old k i t).get j = t.get j := by
  induction k generalizing i t with
  | zero => rfl
  | succ k ih =>
    show (copy old k (i + 1) (t.set i _)).get j = _
    rw [ih (i + 1) (t.set i _) hn (by omega) (by simp only [set_n]; omega)]
    exact get_set_ne hn _ (by omega) (by omega) (by omega)

theorem copy_get (old : Tab α) (k i : Nat) (t : Tab α) (hn : 0 < t.n) {j : Nat} (hj : i ≤ j) (hj' : j < i + k)
    (hk : i + k ≤ j + t.n) : (copy old k i t).get j = old.get j := by
  induction k generalizing i t with
  | zero => omega
  | succ k ih =>
    show (copy old k (i + 1) (t.set i _)).get j = _
    by_cases e : j = i
    · subst e
      rw [copy_keeps old k (j + 1) (t.set j _) hn (by omega) (by simp only [set_n]; omega), get_set]
    · exact ih (i + 1) (t.set i _) hn (by omega) (by omega) (by simp only [set_n]; omega)

/-- The same records in (perhaps) more room. -/
structure Same (a b : Tab α) : Prop where
  n : a.n ≤ b.n
  del : b.del = a.del
  fin : b.fin = a.fin
  pres : b.pres = a.pres
  start : b.start = a.start
  get : ∀ i, a.del ≤ i → i < a.fin → b.get i = a.get i

theorem Same.rfl (a : Tab α) : Same a a := ⟨Nat.le_refl _, by rfl, by rfl, by rfl, by rfl, fun _ _ _ => by rfl⟩

theorem resize_same {z : α} {t : Tab α} (h : t.Ok) {m : Nat} (hm : t.n ≤ m) : Same t (resize z t m) ∧ (resize z t m).n = m := by
  have f := copy_fields t (t.fin - t.start) t.start { t with n := m, slot := fun _ => z }
  have := h.pos; have := h.le; have := h.room; have := h.start
  refine ⟨⟨by unfold resize; rw [f.1]; exact hm, by unfold resize; exact f.2.1, by unfold resize; exact f.2.2.1,
    by unfold resize; exact f.2.2.2.1, by unfold resize; exact f.2.2.2.2, ?_⟩, by unfold resize; exact f.1⟩
  intro i h1 h2
  exact copy_get t _ _ _ (by dsimp only; omega) (by omega) (by omega) (by dsimp only; omega)

theorem Same.ok {a b : Tab α} (s : Same a b) (h : a.Ok) : b.Ok := by
  have := h.pos; have := h.le; have := h.room; have := h.pres; have := h.start; have := h.small
  have := s.n; have := s.del; have := s.fin; have := s.pres; have := s.start
  exact ⟨by omega, by omega, by omega, by omega, by omega, by omega⟩

end Tab

/-! ## Groups of packets -/

theorem first_cons (p : Packet) (g : Group) : first (p :: g) = p.time := rfl

theorem first_append {g : Group} (h : g ≠ []) (x : Group) : first (g ++ x) = first g := by
  cases g with
  | nil => exact absurd rfl h
  | cons p r => rfl

theorem last_snoc (g : Group) (p : Packet) : last (g ++ [p]) = p.time := by simp [last]

theorem last_append {x : Group} (h : x ≠ []) (g : Group) : last (g ++ x) = last x := by
  unfold last
  rw [List.getLast?_append]
  cases hx : x.getLast? with
  | none => exact absurd (List.getLast?_eq_none_iff.mp hx) h
  | some v => rfl

theorem bpos_append {g : Group} (h : g ≠ []) (x : Group) : ((g ++ x).head?.map Packet.bpos).getD 0 = (g.head?.map Packet.bpos).getD 0 := by
  cases g with
  | nil => exact absurd rfl h
  | cons p r => rfl

theorem total_append (f : Packet → Nat) (a b : Group) : total f (a ++ b) = total f a + total f b := by
  simp [total]

theorem fragFirst_append {f : List Group} (h : f ≠ []) (x : List Group) : fragFirst (f ++ x) = fragFirst f := by
  cases f with
  | nil => exact absurd rfl h
  | cons p r => rfl

end Verif.Index
