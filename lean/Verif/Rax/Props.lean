import Verif.Rax.Model
import Verif.Ebml.Lemmas

/-!
# C17, C46: the shared record table
-/
namespace Verif.Rax
open Verif.Bit

/-! ## Specification: an abstract table -/

inductive Val where
  | int (v : Nat)
  | str (s : Bytes)

/-- A value that the field can hold: an integer within range (signed ones in 64-bit two's complement),
or a string without NUL that leaves room for the terminator. Signed 24-bit fields hold only
non-negative values (`C17_int24_fails`). -/
def Val.fits (fd : FD) : Val → Prop
  | .int v =>
    (fd.size = 1 ∨ fd.size = 2 ∨ fd.size = 3 ∨ fd.size = 4 ∨ fd.size = 8) ∧
      ((fd.type &&& 0xF0 = 0x10 ∧ v < 256 ^ fd.size) ∨
        (fd.type &&& 0xF0 = 0x20 ∧ (v < 256 ^ fd.size / 2 ∨ fd.size ≠ 3 ∧ 2 ^ 64 - 256 ^ fd.size / 2 ≤ v ∧ v < 2 ^ 64)))
  | .str s => fd.type &&& 0xF0 = 0x30 ∧ s.length < fd.size ∧ 0 ∉ s

inductive Op where
  | add (n : Nat)
  | delete (n : Nat)
  | write (fd : FD) (rec : Nat) (v : Val)

/-- Records `first .. next-1` are alive. -/
structure Tab where
  first : Nat
  next : Nat
  val : FD → Nat → Option Val

def Tab.init : Tab := ⟨0, 0, fun _ _ => none⟩

def Tab.step (t : Tab) : Op → Tab
  | .add n => { t with next := t.next + n }
  | .delete n => { t with first := t.first + n }
  | .write fd k v => { t with val := fun fd' k' => if fd' = fd ∧ k' = k then some v else t.val fd' k' }

/-- Legal use: adding only while there is room, deleting only what is there, writing a fitting value to
a live record. -/
def Tab.legal (rcount : Nat) (fields : List FD) (t : Tab) : Op → Prop
  | .add n => t.next + n - t.first ≤ rcount ∧ t.next + n < 2 ^ 64
  | .delete n => n ≤ t.next - t.first
  | .write fd k v => fd ∈ fields ∧ t.first ≤ k ∧ k < t.next ∧ v.fits fd

def Tab.legalAll (rcount : Nat) (fields : List FD) : Tab → List Op → Prop
  | _, [] => True
  | t, o :: l => t.legal rcount fields o ∧ (t.step o).legalAll rcount fields l

/-- Fields lie inside the record and do not overlap. -/
structure Layout (rsize : Nat) (fields : List FD) : Prop where
  inside : ∀ fd ∈ fields, fd.offset + fd.size ≤ rsize
  disjoint : ∀ a ∈ fields, ∀ b ∈ fields, a ≠ b → a.offset + a.size ≤ b.offset ∨ b.offset + b.size ≤ a.offset

/-! ## Driving the code -/

def Rax.exec (r : Rax) : Op → Option Rax
  | .add n => some (r.addRecords n)
  | .delete n => r.deleteRecords n
  | .write fd k (.int v) => some (r.setInt fd v k)
  | .write fd k (.str s) => some (r.setString fd s k)

def Rax.run : Rax → List Op → Option Rax
  | r, [] => some r
  | r, o :: l => (r.exec o).bind (·.run l)

/-- Reading a field as the kind of value that was written. -/
def Rax.reads (r : Rax) (fd : FD) (k : Nat) : Val → Prop
  | .int v => r.getInt fd k = v
  | .str s => r.getString fd k = s

/-- A table of `rcount` records just made ready: nothing added yet, any memory contents. -/
def Rax.fresh (rcount rsize offset : Nat) (mem : Mem) : Rax := ⟨rcount, rsize, 0, 0, 0, offset, 0, mem⟩

/-! ## Lemmas -/

theorem read_length (m : Mem) (a n : Nat) : (m.read a n).length = n := by simp [Mem.read]

theorem read_congr {m m' : Mem} {a n : Nat} (h : ∀ x, a ≤ x → x < a + n → m x = m' x) : m.read a n = m'.read a n := by
  unfold Mem.read
  apply List.map_congr_left
  intro i hi
  exact h _ (by omega) (by simp at hi; omega)

theorem read_write_same (m : Mem) (a : Nat) (bs : Bytes) : (m.write a bs).read a bs.length = bs := by
  apply List.ext_getElem
  · simp [Mem.read]
  · intro i h1 h2
    simp only [Mem.read, Mem.write, List.getElem_map, List.getElem_range]
    rw [if_pos ⟨by omega, by omega⟩, show a + i - a = i by omega]
    simp [h2]

theorem write_other (m : Mem) (a x : Nat) (bs : Bytes) (h : x < a ∨ a + bs.length ≤ x) : m.write a bs x = m x := by
  unfold Mem.write; rw [if_neg (by omega)]

theorem encInt_length {size v : Nat} {bs : Bytes} (h : encInt size v = some bs) : bs.length = size := by
  unfold encInt at h
  split at h
  · simp only [Option.some.injEq] at h; rw [← h]; simp
  · split at h
    next hs => simp only [Option.some.injEq] at h; rw [← h, hs]; rfl
    · cases h

theorem setInt_shape (r : Rax) (fd : FD) (v k : Nat) :
    (r.setInt fd v k).rcount = r.rcount ∧ (r.setInt fd v k).rsize = r.rsize ∧ (r.setInt fd v k).offset = r.offset ∧
    (r.setInt fd v k).deleted = r.deleted ∧ (r.setInt fd v k).endPos = r.endPos ∧ (r.setInt fd v k).present = r.present ∧
    ∀ x, (x < r.addr fd k ∨ r.addr fd k + fd.size ≤ x) → (r.setInt fd v k).mem x = r.mem x := by
  unfold Rax.setInt
  split
  · split
    next bs hb =>
      refine ⟨rfl, rfl, rfl, rfl, rfl, rfl, ?_⟩
      intro x hx
      exact write_other _ _ _ _ (by rw [encInt_length hb]; exact hx)
    · exact ⟨rfl, rfl, rfl, rfl, rfl, rfl, fun _ _ => rfl⟩
  · exact ⟨rfl, rfl, rfl, rfl, rfl, rfl, fun _ _ => rfl⟩

theorem setString_shape (r : Rax) (fd : FD) (s : Bytes) (k : Nat) (h0 : 0 < fd.size) :
    (r.setString fd s k).rcount = r.rcount ∧ (r.setString fd s k).rsize = r.rsize ∧ (r.setString fd s k).offset = r.offset ∧
    (r.setString fd s k).deleted = r.deleted ∧ (r.setString fd s k).endPos = r.endPos ∧ (r.setString fd s k).present = r.present ∧
    ∀ x, (x < r.addr fd k ∨ r.addr fd k + fd.size ≤ x) → (r.setString fd s k).mem x = r.mem x := by
  unfold Rax.setString
  split
  · simp only
    split
    · refine ⟨rfl, rfl, rfl, rfl, rfl, rfl, ?_⟩
      intro x hx
      simp only
      rw [write_other _ _ _ _ (by simp only [List.length_cons, List.length_nil]; omega),
        write_other _ _ _ _ (by rw [List.length_take]; omega)]
    · refine ⟨rfl, rfl, rfl, rfl, rfl, rfl, ?_⟩
      intro x hx
      exact write_other _ _ _ _ (by rw [List.length_take]; omega)
  · exact ⟨rfl, rfl, rfl, rfl, rfl, rfl, fun _ _ => rfl⟩

theorem addr_congr {r r' : Rax} (h1 : r'.rcount = r.rcount) (h2 : r'.rsize = r.rsize) (h3 : r'.offset = r.offset) (fd : FD) (k : Nat) :
    r'.addr fd k = r.addr fd k := by unfold Rax.addr; rw [h1, h2, h3]

theorem reads_congr {r r' : Rax} (h1 : r'.rcount = r.rcount) (h2 : r'.rsize = r.rsize) (h3 : r'.offset = r.offset) (fd : FD) (k : Nat) (v : Val)
    (hm : ∀ x, r.addr fd k ≤ x → x < r.addr fd k + fd.size → r'.mem x = r.mem x) (h : r.reads fd k v) : r'.reads fd k v := by
  have ha := addr_congr h1 h2 h3 fd k
  have hr : r'.mem.read (r'.addr fd k) fd.size = r.mem.read (r.addr fd k) fd.size := by
    rw [ha]; exact read_congr hm
  cases v with
  | int v => simp only [Rax.reads, Rax.getInt] at h ⊢; rw [hr]; exact h
  | str s => simp only [Rax.reads, Rax.getString] at h ⊢; rw [hr]; exact h

theorem setInt_reads (r : Rax) (fd : FD) (v k : Nat) (hf : (Val.int v).fits fd) : (r.setInt fd v k).reads fd k (.int v) := by
  obtain ⟨hs, ht⟩ := hf
  have hbs : ∃ bs, encInt fd.size v = some bs := by
    unfold encInt
    by_cases h3 : fd.size = 3
    · rw [if_neg (by omega), if_pos h3]; exact ⟨_, rfl⟩
    · rw [if_pos (by omega)]; exact ⟨_, rfl⟩
  obtain ⟨bs, hbs⟩ := hbs
  have htype : (isUint fd.type || isInt fd.type) = true := by
    unfold isUint isInt
    rcases ht with ⟨h, -⟩ | ⟨h, -⟩ <;> simp [h]
  have hset : r.setInt fd v k = { r with mem := r.mem.write (r.addr fd k) bs } := by
    unfold Rax.setInt
    rw [if_pos htype, hbs]
  have hread : (r.setInt fd v k).mem.read ((r.setInt fd v k).addr fd k) fd.size = bs := by
    rw [hset]
    have := encInt_length hbs
    rw [← this]
    exact read_write_same _ _ _
  have hpow : 256 ^ 1 = 256 ∧ 256 ^ 2 = 65536 ∧ 256 ^ 4 = 4294967296 ∧ 256 ^ 8 = 2 ^ 64 ∧ 256 ^ 3 = 16777216 := by decide
  have hval3 : fd.size = 3 → (btoh .b24 bs).getD 0 = v % 256 ^ 3 := by
    intro h3
    unfold encInt at hbs
    rw [if_neg (by omega), if_pos h3] at hbs
    simp only [Option.some.injEq] at hbs
    rw [← hbs, Verif.Ebml.htob_be .b24 rfl]
    have := Verif.Ebml.btoh_be .b24 rfl v []
    rw [List.append_nil] at this
    rw [this]; rfl
  have hvalp : fd.size ≠ 3 → leVal bs = v % 256 ^ fd.size := by
    intro h3
    unfold encInt at hbs
    rw [if_pos (by omega)] at hbs
    simp only [Option.some.injEq] at hbs
    rw [← hbs, leVal_leEnc]
  simp only [Rax.reads, Rax.getInt, hread]
  rcases ht with ⟨ht, hv⟩ | ⟨ht, hv⟩
  · have hu : isUint fd.type = true := by simp [isUint, ht]
    rw [if_pos hu]
    by_cases h3 : fd.size = 3
    · rw [if_neg (by omega), if_pos h3, hval3 h3]
      rw [h3] at hv
      exact Nat.mod_eq_of_lt hv
    · rw [if_pos (by omega), hvalp h3]
      exact Nat.mod_eq_of_lt hv
  · have hu : isUint fd.type = false := by simp [isUint, ht]
    have hi : isInt fd.type = true := by simp [isInt, ht]
    rw [if_neg (by simp [hu]), if_pos hi]
    by_cases h3 : fd.size = 3
    · rw [if_neg (by omega), if_pos h3, hval3 h3]
      rcases hv with hv | ⟨hv, -⟩
      · rw [h3] at hv
        exact Nat.mod_eq_of_lt (by omega)
      · exact absurd h3 hv
    · rw [if_pos (by omega), hvalp h3]
      unfold signExtend
      rcases hs with hs | hs | hs | hs | hs
      · rw [hs] at hv ⊢; simp only [hpow] at hv ⊢; split <;> omega
      · rw [hs] at hv ⊢; simp only [hpow] at hv ⊢; split <;> omega
      · exact absurd hs h3
      · rw [hs] at hv ⊢; simp only [hpow] at hv ⊢; split <;> omega
      · rw [hs] at hv ⊢; simp only [hpow] at hv ⊢; split <;> omega

theorem setString_reads (r : Rax) (fd : FD) (s : Bytes) (k : Nat) (hf : (Val.str s).fits fd) : (r.setString fd s k).reads fd k (.str s) := by
  obtain ⟨ht, hl, h0⟩ := hf
  have hst : isString fd.type = true := by simp [isString, ht]
  have hmin : min s.length (fd.size - 1) = s.length := by omega
  have htake : s.take fd.size = s := List.take_of_length_le (by omega)
  have hset : (r.setString fd s k) = { r with mem := (r.mem.write (r.addr fd k) s).write (r.addr fd k + s.length) [0] } := by
    unfold Rax.setString
    simp only [hst, Bool.true_or, if_true, hmin, htake]
  simp only [Rax.reads, Rax.getString, hset]
  show List.takeWhile _ (Mem.read _ (r.addr fd k) _) = s
  generalize r.addr fd k = a
  have hsplit : ((r.mem.write a s).write (a + s.length) [0]).read a fd.size =
      s ++ (0 : UInt8) :: ((r.mem.write a s).write (a + s.length) [0]).read (a + s.length + 1) (fd.size - s.length - 1) := by
    apply List.ext_getElem
    · simp [Mem.read]; omega
    · intro i h1 h2
      rw [read_length] at h1
      by_cases hi : i < s.length
      · rw [List.getElem_append_left hi]
        simp only [Mem.read, List.getElem_map, List.getElem_range]
        rw [write_other _ _ _ _ (by omega)]
        unfold Mem.write
        rw [if_pos ⟨by omega, by omega⟩, show a + i - a = i by omega]
        simp [hi]
      · rw [List.getElem_append_right (by omega)]
        simp only [Mem.read, List.getElem_map, List.getElem_range]
        by_cases he : i = s.length
        · simp only [he, Nat.sub_self, List.getElem_cons_zero]
          unfold Mem.write
          rw [if_pos ⟨by omega, by simp⟩]
          simp
        · rw [List.getElem_cons]
          rw [dif_neg (by omega)]
          simp only [List.getElem_map, List.getElem_range]
          congr 1
          omega
  rw [hsplit]
  rw [List.takeWhile_append_of_pos]
  · simp
  · intro x hx; simp; intro h; exact h0 (h ▸ hx)

theorem mod_ne_of_window {a b r : Nat} (hab : a < b) (hr : b - a < r) : a % r ≠ b % r := by
  intro h
  have h1 := Nat.div_add_mod a r
  have h2 := Nat.div_add_mod b r
  rw [← h] at h2
  have h3 : b - a = r * (b / r) - r * (a / r) := by omega
  rw [← Nat.mul_sub] at h3
  cases hq : b / r - a / r with
  | zero => rw [hq] at h3; omega
  | succ q =>
    rw [hq, Nat.mul_add, Nat.mul_one] at h3
    omega

theorem ranges_disjoint {r : Rax} {fields : List FD} (hc : 0 < r.rcount) (hL : Layout r.rsize fields) {a b : FD} (ha : a ∈ fields) (hb : b ∈ fields)
    {i j : Nat} (hne : i ≠ j ∨ a ≠ b) (hw : i ≠ j → i % r.rcount ≠ j % r.rcount) :
    r.addr a i + a.size ≤ r.addr b j ∨ r.addr b j + b.size ≤ r.addr a i := by
  have ia := hL.inside a ha
  have ib := hL.inside b hb
  unfold Rax.addr
  rw [if_pos (by omega), if_pos (by omega)]
  by_cases hij : i = j
  · subst hij
    rcases hne with h | h
    · exact absurd rfl h
    · rcases hL.disjoint a ha b hb h with h | h <;> omega
  · have hm := hw hij
    generalize i % r.rcount = x at hm ⊢
    generalize j % r.rcount = y at hm ⊢
    rcases Nat.lt_or_gt_of_ne hm with h | h
    · left
      have := Nat.mul_le_mul_right r.rsize (show x + 1 ≤ y from h)
      rw [Nat.add_mul, Nat.one_mul] at this
      omega
    · right
      have := Nat.mul_le_mul_right r.rsize (show y + 1 ≤ x from h)
      rw [Nat.add_mul, Nat.one_mul] at this
      omega

/-- The relation between the code's table and the abstract one. -/
structure Rel (r : Rax) (t : Tab) (rcount rsize : Nat) (fields : List FD) : Prop where
  hrc : r.rcount = rcount
  hrs : r.rsize = rsize
  hdel : r.deleted = t.first
  hend : r.endPos = t.next
  hpre : r.present = t.next - t.first
  hle : t.first ≤ t.next
  hroom : t.next - t.first ≤ rcount
  hlt : t.next < 2 ^ 64
  hnew : ∀ fd k, t.next ≤ k → t.val fd k = none
  hval : ∀ fd ∈ fields, ∀ k v, t.first ≤ k → k < t.next → t.val fd k = some v → r.reads fd k v

theorem rel_write {r r' : Rax} {t : Tab} {rcount rsize : Nat} {fields : List FD} (hR : Rel r t rcount rsize fields) (h0 : 0 < rcount)
    (hL : Layout rsize fields) {fd : FD} {k : Nat} {v : Val} (hfd : fd ∈ fields) (hk1 : t.first ≤ k) (hk2 : k < t.next)
    (s1 : r'.rcount = r.rcount) (s2 : r'.rsize = r.rsize) (s3 : r'.offset = r.offset) (s4 : r'.deleted = r.deleted) (s5 : r'.endPos = r.endPos)
    (s6 : r'.present = r.present) (s7 : ∀ x, (x < r.addr fd k ∨ r.addr fd k + fd.size ≤ x) → r'.mem x = r.mem x) (hv : r'.reads fd k v) :
    Rel r' (t.step (.write fd k v)) rcount rsize fields := by
  refine ⟨by rw [s1, hR.hrc], by rw [s2, hR.hrs], by rw [s4, hR.hdel]; rfl, by rw [s5, hR.hend]; rfl, by rw [s6, hR.hpre]; rfl,
    hR.hle, hR.hroom, hR.hlt, ?_, ?_⟩
  · intro fd' k' hk'
    simp only [Tab.step] at hk' ⊢
    rw [if_neg (by intro h; omega)]
    exact hR.hnew fd' k' hk'
  · intro fd' hfd' k' v' hk1' hk2' hval
    simp only [Tab.step] at hk1' hk2' hval
    by_cases he : fd' = fd ∧ k' = k
    · rw [if_pos he] at hval
      simp only [Option.some.injEq] at hval
      rw [← hval, he.1, he.2]; exact hv
    · rw [if_neg he] at hval
      have hold := hR.hval fd' hfd' k' v' hk1' hk2' hval
      refine reads_congr s1 s2 s3 fd' k' v' ?_ hold
      have hroom := hR.hroom
      have hd := ranges_disjoint (r := r) (by rw [hR.hrc]; exact h0) (by rw [hR.hrs]; exact hL) hfd' hfd (i := k') (j := k)
        (by
          by_cases hkk : k' = k
          · right; intro h; exact he ⟨h, hkk⟩
          · exact .inl hkk)
        (by
          intro hne
          rw [hR.hrc]
          rcases Nat.lt_or_gt_of_ne hne with h | h
          · exact mod_ne_of_window h (by omega)
          · exact (mod_ne_of_window h (by omega)).symm)
      intro x hx1 hx2
      apply s7
      omega

theorem rel_step {r : Rax} {t : Tab} {rcount rsize : Nat} {fields : List FD} (hR : Rel r t rcount rsize fields) (h0 : 0 < rcount)
    (hc : rcount < 2 ^ 32) (hL : Layout rsize fields) (o : Op) (hlegal : t.legal rcount fields o) :
    ∃ r', r.exec o = some r' ∧ Rel r' (t.step o) rcount rsize fields := by
  cases o with
  | add n =>
    obtain ⟨l1, l2⟩ := hlegal
    refine ⟨_, rfl, ?_⟩
    have hle := hR.hle
    have hlt := hR.hlt
    have hroom := hR.hroom
    have hp := hR.hpre
    have e : (r.endPos + n + (2 ^ 64 - r.deleted)) % 2 ^ 64 = t.next + n - t.first := by
      rw [hR.hend, hR.hdel]; omega
    refine ⟨hR.hrc, hR.hrs, hR.hdel, ?_, ?_, ?_, ?_, ?_, ?_, ?_⟩
    · simp only [Rax.addRecords, Tab.step]; rw [hR.hend]; exact Nat.mod_eq_of_lt l2
    · simp only [Rax.addRecords, Tab.step]
      rw [e, if_neg (by rw [hR.hrc]; omega)]
      omega
    · simp only [Tab.step]; omega
    · simp only [Tab.step]; omega
    · simp only [Tab.step]; exact l2
    · intro fd k hk
      simp only [Tab.step] at hk ⊢
      exact hR.hnew fd k (by omega)
    · intro fd hfd k v hk1 hk2 hval
      simp only [Tab.step] at hk1 hk2 hval
      have : k < t.next := by
        apply Nat.lt_of_not_le
        intro h
        rw [hR.hnew fd k h] at hval; cases hval
      exact reads_congr (r := r) rfl rfl rfl fd k v (fun _ _ _ => rfl) (hR.hval fd hfd k v hk1 this hval)
  | delete n =>
    simp only [Tab.legal] at hlegal
    have hle := hR.hle
    have hlt := hR.hlt
    have hroom := hR.hroom
    have hp := hR.hpre
    refine ⟨_, by simp only [Rax.exec, Rax.deleteRecords]; rw [if_pos (by omega)], ?_⟩
    refine ⟨hR.hrc, hR.hrs, ?_, hR.hend, ?_, ?_, ?_, hlt, hR.hnew, ?_⟩
    · simp only [Tab.step]; rw [hR.hdel]; exact Nat.mod_eq_of_lt (by omega)
    · simp only [Tab.step]; omega
    · simp only [Tab.step]; omega
    · simp only [Tab.step]; omega
    · intro fd hfd k v hk1 hk2 hval
      simp only [Tab.step] at hk1 hk2 hval
      exact reads_congr (r := r) rfl rfl rfl fd k v (fun _ _ _ => rfl) (hR.hval fd hfd k v (by omega) hk2 hval)
  | write fd k v =>
    obtain ⟨hfd, hk1, hk2, hfit⟩ := hlegal
    cases v with
    | int v =>
      obtain ⟨s1, s2, s3, s4, s5, s6, s7⟩ := setInt_shape r fd v k
      exact ⟨_, rfl, rel_write hR h0 hL hfd hk1 hk2 s1 s2 s3 s4 s5 s6 s7 (setInt_reads r fd v k hfit)⟩
    | str s =>
      have hpos : 0 < fd.size := by have := hfit.2.1; omega
      obtain ⟨s1, s2, s3, s4, s5, s6, s7⟩ := setString_shape r fd s k hpos
      exact ⟨_, rfl, rel_write hR h0 hL hfd hk1 hk2 s1 s2 s3 s4 s5 s6 s7 (setString_reads r fd s k hfit)⟩

theorem rel_run {rcount rsize : Nat} {fields : List FD} (h0 : 0 < rcount) (hc : rcount < 2 ^ 32) (hL : Layout rsize fields) (ops : List Op) :
    ∀ (r : Rax) (t : Tab), Rel r t rcount rsize fields → t.legalAll rcount fields ops →
      ∃ r', r.run ops = some r' ∧ Rel r' (ops.foldl Tab.step t) rcount rsize fields := by
  induction ops with
  | nil => intro r t hR _; exact ⟨r, rfl, hR⟩
  | cons o l ih =>
    intro r t hR hl
    obtain ⟨r1, e1, h1⟩ := rel_step hR h0 hc hL o hl.1
    obtain ⟨r2, e2, h2⟩ := ih r1 _ h1 hl.2
    exact ⟨r2, by simp [Rax.run, e1, e2], h2⟩

theorem rel_fresh (rcount rsize offset : Nat) (mem : Mem) (fields : List FD) : Rel (Rax.fresh rcount rsize offset mem) Tab.init rcount rsize fields :=
  ⟨rfl, rfl, rfl, rfl, rfl, Nat.le_refl _, Nat.zero_le _, by decide, fun _ _ _ => rfl, fun _ _ _ _ _ _ h => by cases h⟩

/-! ## C17 -/

/-- C17. After any legal history of adding, deleting and writing on a table of any geometry: the table
never exits; exactly the records from `first` to `next` are reported as available and present; and
every live record reads back, in every field, the value last written to it. -/
theorem C17_history_partial (rcount rsize offset : Nat) (mem : Mem) (fields : List FD) (h0 : 0 < rcount) (hc : rcount < 2 ^ 32)
    (hL : Layout rsize fields) (ops : List Op) (hl : Tab.init.legalAll rcount fields ops) :
    ∃ r, (Rax.fresh rcount rsize offset mem).run ops = some r ∧
      let t := ops.foldl Tab.step Tab.init
      (∀ k, r.isRecordAvailable k = true ↔ t.first ≤ k ∧ k < t.next) ∧
      r.present = t.next - t.first ∧ t.next - t.first ≤ rcount ∧
      ∀ fd ∈ fields, ∀ k v, t.first ≤ k → k < t.next → t.val fd k = some v → r.reads fd k v := by
  obtain ⟨r, hr, hR⟩ := rel_run h0 hc hL ops _ _ (rel_fresh rcount rsize offset mem fields) hl
  refine ⟨r, hr, ?_, hR.hpre, hR.hroom, hR.hval⟩
  intro k
  unfold Rax.isRecordAvailable
  rw [hR.hdel, hR.hend]
  generalize ops.foldl Tab.step Tab.init = t
  by_cases h1 : t.first > k
  · rw [if_pos h1]; simp; omega
  · rw [if_neg h1]
    by_cases h2 : k ≥ t.next
    · rw [if_pos h2]; simp; omega
    · rw [if_neg h2]; simp; omega

/-- C17. Reads and writes of any record of any field stay inside the record area that follows the
header and the field descriptions. -/
theorem C17_in_bounds (r : Rax) (fields : List FD) (h0 : 0 < r.rcount) (hL : Layout r.rsize fields) (fd : FD) (hfd : fd ∈ fields) (k : Nat) :
    r.offset ≤ r.addr fd k ∧ r.addr fd k + fd.size ≤ r.offset + r.rcount * r.rsize := by
  have := hL.inside fd hfd
  unfold Rax.addr
  rw [if_pos (by omega)]
  have hm : k % r.rcount + 1 ≤ r.rcount := Nat.mod_lt _ h0
  have := Nat.mul_le_mul_right r.rsize hm
  rw [Nat.add_mul, Nat.one_mul] at this
  omega

/-- C17 fails without the room condition: adding to a full table is not refused, so more records than
the table has room for are reported available and two of them share one slot. -/
theorem C17_overfull_fails :
    let fd : FD := ⟨0x17, 8, 0⟩
    let r := (((Rax.fresh 2 8 40 (fun _ => 0)).addRecords 2).setInt fd 5 0).addRecords 1
    let r' := r.setInt fd 9 2
    r'.isRecordAvailable 0 = true ∧ r'.isRecordAvailable 2 = true ∧ r.getInt fd 0 = 5 ∧ r'.getInt fd 0 = 9 ∧ r'.present = 0 := by
  decide +kernel

/-- Signed 24-bit fields lose the sign. -/
theorem C17_int24_fails :
    ((Rax.fresh 2 3 40 (fun _ => 0)).setInt ⟨0x22, 3, 0⟩ (2 ^ 64 - 1) 0).getInt ⟨0x22, 3, 0⟩ 0 = 0xFFFFFF := by
  decide +kernel

/-! ## C46: the table describes itself -/

/-- One `addField` call. -/
structure Decl where
  name : Bytes
  type : UInt8
  len : Nat

/-- A usable declaration: a name of 1 to 31 bytes, and a length if the type has no default. -/
def Decl.ok (d : Decl) : Prop :=
  1 ≤ d.name.length ∧ d.name.length ≤ 31 ∧ d.len < 2 ^ 32 ∧ (d.len ≠ 0 ∨ defaultSize d.type ≠ 0)

def Decl.size (d : Decl) : Nat := if d.len = 0 then defaultSize d.type else d.len

def Schema.addAll (s : Schema) (l : List Decl) : Schema := l.foldl (fun s d => s.addField d.name d.type d.len) s

theorem defaultSize_lt : ∀ t : UInt8, defaultSize t < 2 ^ 20 := by decide +kernel

theorem decl_byte : ∀ (n : Fin 32) (tl : Fin 8), (UInt8.ofNat ((n.val <<< 3) ||| (tl.val &&& 7))).toNat >>> 3 = n.val ∧
    (UInt8.ofNat ((n.val <<< 3) ||| (tl.val &&& 7))).toNat &&& 7 = tl.val := by decide +kernel

theorem openFields_step (name : Bytes) (t : UInt8) (len : Nat) (hn1 : 1 ≤ name.length) (hn : name.length ≤ 31) (hl0 : 0 < len) (hl : len < 2 ^ 32)
    (rest : Bytes) (off : Nat) (acc : List (Bytes × FD)) :
    openFields ([UInt8.ofNat ((name.length <<< 3) ||| (typeLen t len &&& 7))] ++ name ++ [t] ++ leEnc (typeLen t len - 1) len ++ rest) off acc =
      openFields rest (off + len) (setField acc name ⟨t, len, off % 2 ^ 32⟩) := by
  have htl : typeLen t len = 1 ∨ typeLen t len = 2 ∨ typeLen t len = 3 ∨ typeLen t len = 5 := by
    unfold typeLen
    by_cases h1 : defaultSize t = len
    · rw [if_pos h1]; simp
    · rw [if_neg h1]
      by_cases h2 : len < 0x100
      · rw [if_pos h2]; simp
      · rw [if_neg h2]; split <;> simp
  obtain ⟨d1, d2⟩ := decl_byte ⟨name.length, by omega⟩ ⟨typeLen t len, by omega⟩
  simp only at d1 d2
  have hsize : readSize (typeLen t len) t (leEnc (typeLen t len - 1) len ++ rest) = some len := by
    unfold readSize
    by_cases h1 : defaultSize t = len
    · have : typeLen t len = 1 := by unfold typeLen; rw [if_pos h1]
      rw [this, if_pos rfl, h1]
    · by_cases h2 : len < 0x100
      · have : typeLen t len = 2 := by unfold typeLen; rw [if_neg h1, if_pos h2]
        rw [this, if_neg (by decide), if_pos rfl, if_neg (by simp)]
        rw [List.take_append_of_le_length (by simp), List.take_of_length_le (by simp), leVal_leEnc]
        exact congrArg some (by omega)
      · by_cases h3 : len < 0x10000
        · have : typeLen t len = 3 := by unfold typeLen; rw [if_neg h1, if_neg h2, if_pos h3]
          rw [this, if_neg (by decide), if_neg (by decide), if_pos rfl, if_neg (by simp)]
          rw [List.take_append_of_le_length (by simp), List.take_of_length_le (by simp), leVal_leEnc]
          exact congrArg some (by omega)
        · have : typeLen t len = 5 := by unfold typeLen; rw [if_neg h1, if_neg h2, if_neg h3]
          rw [this, if_neg (by decide), if_neg (by decide), if_neg (by decide), if_neg (by decide), if_pos rfl, if_neg (by simp)]
          rw [List.take_append_of_le_length (by simp), List.take_of_length_le (by simp), leVal_leEnc]
          exact congrArg some (by omega)
  simp only [List.cons_append, List.nil_append, List.append_assoc]
  rw [openFields.eq_def]
  simp only [d1, d2]
  rw [List.drop_left, List.take_left]
  simp only [hsize]
  congr 1
  rw [show name.length + typeLen t len = name.length + (typeLen t len) from rfl, ← List.drop_drop, List.drop_left]
  obtain ⟨j, hj⟩ : ∃ j, typeLen t len = j + 1 := ⟨typeLen t len - 1, by omega⟩
  rw [hj, List.drop_succ_cons]
  simp only [Nat.add_sub_cancel]
  rw [show j = (leEnc j len).length by simp]
  simp

theorem open_addAll (l : List Decl) (hok : ∀ d ∈ l, d.ok) : ∀ (s : Schema) (acc : List (Bytes × FD)) (off : Nat),
    off + (l.map Decl.size).sum < 2 ^ 32 → s.rsize = off → s.fields = acc →
    ∃ tail, (s.addAll l).bytes = s.bytes ++ tail ∧ openFields tail off acc = some (s.addAll l).fields ∧
      (s.addAll l).rsize = off + (l.map Decl.size).sum := by
  induction l with
  | nil =>
    intro s acc off _ hs hf
    exact ⟨[], by simp [Schema.addAll], by rw [openFields.eq_def]; simp [Schema.addAll, hf], by simp [Schema.addAll, hs]⟩
  | cons d l ih =>
    intro s acc off hoff hs hf
    obtain ⟨n1, n2, n3, n4⟩ := hok d (by simp)
    simp only [List.map_cons, List.sum_cons] at hoff
    have hsz : d.size ≠ 0 := by
      unfold Decl.size; split
      next h => rcases n4 with h' | h'; exact absurd h h'; exact h'
      next h => exact h
    have hszlt : d.size < 2 ^ 32 := by omega
    have hadd : s.addField d.name d.type d.len =
        { fields := setField s.fields d.name ⟨d.type, d.size, s.rsize⟩
          bytes := s.bytes ++ [UInt8.ofNat ((d.name.length <<< 3) ||| (typeLen d.type d.size &&& 7))] ++ d.name ++ [d.type] ++ leEnc (typeLen d.type d.size - 1) d.size
          rsize := (s.rsize + d.size) % 2 ^ 32 } := by
      unfold Schema.addField
      rw [if_neg (by omega)]
      simp only
      rw [show (if d.len = 0 then defaultSize d.type else d.len) = d.size from rfl, if_neg hsz]
    obtain ⟨tail, e1, e2, e3⟩ := ih (fun x hx => hok x (by simp [hx])) (s.addField d.name d.type d.len)
      (setField acc d.name ⟨d.type, d.size, off⟩) (off + d.size) (by omega)
      (by rw [hadd]; simp only; rw [hs]; exact Nat.mod_eq_of_lt (by omega))
      (by rw [hadd]; simp only; rw [hs, hf])
    refine ⟨[UInt8.ofNat ((d.name.length <<< 3) ||| (typeLen d.type d.size &&& 7))] ++ d.name ++ [d.type] ++ leEnc (typeLen d.type d.size - 1) d.size ++ tail, ?_, ?_, ?_⟩
    · show (Schema.addAll (s.addField d.name d.type d.len) l).bytes = _
      rw [e1, hadd]; simp
    · rw [openFields_step d.name d.type d.size n1 n2 (by omega) hszlt, Nat.mod_eq_of_lt (by omega : off < 2 ^ 32)]
      exact e2
    · show (Schema.addAll (s.addField d.name d.type d.len) l).rsize = _
      rw [e3]; simp only [List.map_cons, List.sum_cons]; omega

/-- C46. Whatever fields a process declares (names up to 31 bytes, total record size below 4 GiB), any
process that opens the table afterwards finds exactly the same fields, types, sizes and positions,
and reads nothing beyond the descriptions. -/
theorem C46_self_describing (l : List Decl) (hok : ∀ d ∈ l, d.ok) (hs : (l.map Decl.size).sum < 2 ^ 32) :
    openFields (Schema.init.addAll l).bytes 0 [] = some (Schema.init.addAll l).fields ∧
      (Schema.init.addAll l).rsize = (l.map Decl.size).sum := by
  obtain ⟨tail, e1, e2, e3⟩ := open_addAll l hok Schema.init [] 0 (by omega) rfl rfl
  rw [e1]
  exact ⟨e2, by rw [e3]; omega⟩

/-- What `find` on the field map returns. -/
def lookup (l : List (Bytes × FD)) (name : Bytes) : Option FD := (l.find? (·.1 = name)).map (·.2)

theorem lookup_setField (l : List (Bytes × FD)) (n m : Bytes) (fd : FD) :
    lookup (setField l n fd) m = if n = m then some fd else lookup l m := by
  unfold lookup setField
  by_cases h : n = m
  · simp [h]
  · rw [if_neg h, List.find?_cons_of_neg (by simpa using h)]
    congr 1
    induction l with
    | nil => rfl
    | cons x t ih =>
      by_cases hx : x.1 = n
      · rw [List.filter_cons_of_neg (by simp [hx]), ih, List.find?_cons_of_neg (by rw [hx]; simpa using h)]
      · rw [List.filter_cons_of_pos (by simp [hx])]
        by_cases hm : x.1 = m
        · rw [List.find?_cons_of_pos (by simpa using hm), List.find?_cons_of_pos (by simpa using hm)]
        · rw [List.find?_cons_of_neg (by simpa using hm), List.find?_cons_of_neg (by simpa using hm), ih]

/-- Fields in the schema lie inside the record so far and do not overlap. -/
theorem addAll_layout (l : List Decl) (hok : ∀ d ∈ l, d.ok) : ∀ (s : Schema), Layout s.rsize (s.fields.map (·.2)) →
    s.rsize + (l.map Decl.size).sum < 2 ^ 32 → Layout (s.addAll l).rsize ((s.addAll l).fields.map (·.2)) := by
  induction l with
  | nil => intro s h _; exact h
  | cons d l ih =>
    intro s h hs
    simp only [List.map_cons, List.sum_cons] at hs
    obtain ⟨n1, n2, n3, n4⟩ := hok d (by simp)
    have hsz : d.size ≠ 0 := by
      unfold Decl.size; split
      next h => rcases n4 with h' | h'; exact absurd h h'; exact h'
      next h => exact h
    have hadd : s.addField d.name d.type d.len =
        { fields := setField s.fields d.name ⟨d.type, d.size, s.rsize⟩
          bytes := s.bytes ++ [UInt8.ofNat ((d.name.length <<< 3) ||| (typeLen d.type d.size &&& 7))] ++ d.name ++ [d.type] ++ leEnc (typeLen d.type d.size - 1) d.size
          rsize := (s.rsize + d.size) % 2 ^ 32 } := by
      unfold Schema.addField
      rw [if_neg (by omega)]
      simp only
      rw [show (if d.len = 0 then defaultSize d.type else d.len) = d.size from rfl, if_neg hsz]
    have hr : (s.rsize + d.size) % 2 ^ 32 = s.rsize + d.size := Nat.mod_eq_of_lt (by omega)
    show Layout (Schema.addAll (s.addField d.name d.type d.len) l).rsize _
    refine ih (fun x hx => hok x (by simp [hx])) _ ?_ (by rw [hadd]; simp only; rw [hr]; omega)
    rw [hadd]
    simp only
    rw [hr]
    have hmem : ∀ fd ∈ (setField s.fields d.name ⟨d.type, d.size, s.rsize⟩).map (·.2), fd = ⟨d.type, d.size, s.rsize⟩ ∨ fd ∈ s.fields.map (·.2) := by
      intro fd hfd
      simp only [setField, List.map_cons, List.mem_cons, List.mem_map, List.mem_filter] at hfd
      rcases hfd with rfl | ⟨x, ⟨hx, -⟩, rfl⟩
      · exact .inl rfl
      · exact .inr (List.mem_map.mpr ⟨x, hx, rfl⟩)
    constructor
    · intro fd hfd
      rcases hmem fd hfd with rfl | h'
      · exact Nat.le_refl _
      · have := h.inside fd h'; omega
    · intro a ha b hb hne
      rcases hmem a ha with rfl | ha' <;> rcases hmem b hb with rfl | hb'
      · exact absurd rfl hne
      · right; exact h.inside b hb'
      · left; exact h.inside a ha'
      · exact h.disjoint a ha' b hb' hne

/-- C46. Declared fields lie inside the record and never overlap: the layout C17 needs is the one the
code makes. -/
theorem C46_layout (l : List Decl) (hok : ∀ d ∈ l, d.ok) (hs : (l.map Decl.size).sum < 2 ^ 32) :
    Layout (Schema.init.addAll l).rsize ((Schema.init.addAll l).fields.map (·.2)) :=
  addAll_layout l hok Schema.init ⟨by simp [Schema.init], by simp [Schema.init]⟩ (by simpa [Schema.init] using hs)

/-- C46. Every declared name is found, with the type and size of its last declaration. -/
theorem C46_lookup (l : List Decl) (d : Decl) (hok : d.ok) :
    ∃ off, lookup ((Schema.init.addAll (l ++ [d])).fields) d.name = some ⟨d.type, d.size, off⟩ := by
  obtain ⟨n1, n2, n3, n4⟩ := hok
  have hsz : d.size ≠ 0 := by
    unfold Decl.size; split
    next h => rcases n4 with h' | h'; exact absurd h h'; exact h'
    next h => exact h
  refine ⟨(Schema.init.addAll l).rsize, ?_⟩
  have : Schema.init.addAll (l ++ [d]) = (Schema.init.addAll l).addField d.name d.type d.len := by simp [Schema.addAll]
  rw [this]
  unfold Schema.addField
  rw [if_neg (by omega)]
  simp only
  rw [show (if d.len = 0 then defaultSize d.type else d.len) = d.size from rfl, if_neg hsz]
  rw [lookup_setField, if_pos rfl]

/-! ## Non-vacuity -/

example : Layout 12 [⟨0x17, 8, 0⟩, ⟨0x30, 4, 8⟩] := ⟨by decide, by decide⟩
example : Tab.init.legalAll 3 [⟨0x17, 8, 0⟩, ⟨0x30, 4, 8⟩]
    [.add 3, .write ⟨0x17, 8, 0⟩ 1 (.int 7), .delete 1, .add 1, .write ⟨0x30, 4, 8⟩ 3 (.str [65, 66]), .delete 2] := by
  simp [Tab.legalAll, Tab.legal, Tab.step, Tab.init, Val.fits]
  decide
example : ∀ d ∈ [Decl.mk [65] 0x17 0, ⟨[66], 0x40, 300⟩, ⟨[67, 68], 0x34, 0⟩], d.ok := by
  simp [Decl.ok]
  decide

/-- C46. Names the table cannot hold (empty, or longer than 31 bytes) are refused and change nothing. -/
theorem C46_refused (s : Schema) (name : Bytes) (t : UInt8) (len : Nat) (h : name = [] ∨ 31 < name.length) :
    s.addField name t len = s := by
  unfold Schema.addField
  rw [if_pos (by rcases h with rfl | h; exact .inl rfl; exact .inr h)]

/-- C46. Whatever is declared, with any names and types, the table stays self-describing: unusable declarations
are as good as absent. -/
theorem C46_any_declarations (l : List Decl) (hlen : ∀ d ∈ l, d.len < 2 ^ 32)
    (hs : (l.map Decl.size).sum < 2 ^ 32) :
    openFields (Schema.init.addAll l).bytes 0 [] = some (Schema.init.addAll l).fields := by
  classical
  have key : ∀ (l : List Decl) (s : Schema), (∀ d ∈ l, d.len < 2 ^ 32) → s.addAll l = s.addAll (l.filter fun d => decide d.ok) := by
    intro l
    induction l with
    | nil => intro s _; rfl
    | cons d l ih =>
      intro s hl
      by_cases h : d.ok
      · rw [List.filter_cons_of_pos (by simpa using h)]
        exact ih _ fun d hd => hl d (List.mem_cons_of_mem _ hd)
      · rw [List.filter_cons_of_neg (by simpa using h), ← ih _ fun d hd => hl d (List.mem_cons_of_mem _ hd)]
        show Schema.addAll (s.addField d.name d.type d.len) l = _
        have h0 := hl d (List.mem_cons_self ..)
        have hd : s.addField d.name d.type d.len = s := by
          by_cases hn : d.name = [] ∨ 31 < d.name.length
          · exact C46_refused s _ _ _ hn
          · have hn1 : d.name.length ≠ 0 := fun e => hn (.inl (List.length_eq_zero_iff.mp e))
            unfold Decl.ok at h
            unfold Schema.addField
            rw [if_neg (by omega)]
            simp only
            rw [if_pos (by split <;> omega)]
        rw [hd]
  have hsum : ∀ l : List Decl, ((l.filter fun d => decide d.ok).map Decl.size).sum ≤ (l.map Decl.size).sum := by
    intro l
    induction l with
    | nil => exact Nat.le_refl _
    | cons d l ih =>
      by_cases h : d.ok
      · rw [List.filter_cons_of_pos (by simpa using h)]; simp only [List.map_cons, List.sum_cons]; omega
      · rw [List.filter_cons_of_neg (by simpa using h)]; simp only [List.map_cons, List.sum_cons]; omega
  rw [key l _ hlen]
  exact (C46_self_describing _ (fun d hd => by simpa using (List.mem_filter.mp hd).2)
    (Nat.lt_of_le_of_lt (hsum l) hs)).1

/-- A 32 byte name between two usable ones. -/
example : (Schema.init.addAll [⟨[65], 0x17, 0⟩, ⟨List.replicate 32 66, 0x17, 0⟩, ⟨[67], 0x17, 0⟩]).fields.length = 2 := by
  decide

end Verif.Rax
