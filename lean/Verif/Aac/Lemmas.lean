import Verif.Aac.Spec

namespace Verif.Aac
open Verif

theorem bytes_length (f : Frame) : f.bytes.length = f.size := by
  unfold Frame.bytes Frame.size Frame.hsize
  cases f.check with
  | none => simp; omega
  | some c => simp; omega

theorem hsize_cases (f : Frame) : f.hsize = 7 ∨ f.hsize = 9 := by unfold Frame.hsize; split <;> simp

/-- A buffer starts like the frame. -/
def Pre (f : Frame) (b : Bytes) : Prop := ∀ i < 7, b[i]? = f.bytes[i]?

theorem pre_of {f : Frame} {b t u : Bytes} (h : b ++ t = f.bytes ++ u) (hl : 7 ≤ b.length) : Pre f b := by
  intro i hi
  have h1 : (b ++ t)[i]? = b[i]? := List.getElem?_append_left (by omega)
  have h2 : (f.bytes ++ u)[i]? = f.bytes[i]? := by
    refine List.getElem?_append_left ?_
    rw [bytes_length]
    unfold Frame.size
    rcases hsize_cases f with h | h <;> omega
  rw [← h1, h, h2]

theorem at_get {b : Bytes} {i : Nat} {x : UInt8} (h : b[i]? = some x) : at' b i = x.toNat := by
  unfold at'
  rw [List.getD_eq_getElem?_getD, h]; rfl

section
variable {f : Frame} {b : Bytes} (hf : f.Ok) (hp : Pre f b)
include hf hp

omit hf in
theorem at0 : at' b 0 = 255 := at_get (hp 0 (by decide))

omit hf in
theorem at1 : at' b 1 = 240 + (if f.mpeg2 then 8 else 0) + if f.check.isSome then 0 else 1 := by
  rw [at_get (hp 1 (by decide)), u8n]
  cases f.mpeg2 <;> cases f.check <;> simp

theorem at2 : at' b 2 = (f.object - 1) * 64 + f.rate * 4 + (if f.priv then 2 else 0) + f.chans / 4 := by
  rw [at_get (hp 2 (by decide)), u8n]
  have h1 := hf.object; have h2 := hf.rate; have h3 := hf.chans
  cases f.priv <;> simp only [if_true, if_false, Bool.false_eq_true] <;> omega

theorem at3 : at' b 3 = f.chans % 4 * 64 + f.flags * 4 + f.size / 2048 := by
  rw [at_get (hp 3 (by decide)), u8n]
  have h1 := hf.flags; have h2 := hf.size
  omega

omit hf in
theorem at4 : at' b 4 = f.size / 8 % 256 := by rw [at_get (hp 4 (by decide)), u8n]

theorem at5 : at' b 5 = f.size % 8 * 32 + f.full / 64 := by
  rw [at_get (hp 5 (by decide)), u8n]
  have h1 := hf.full
  omega

theorem at6 : at' b 6 = f.full % 64 * 4 + (f.blocks - 1) := by
  rw [at_get (hp 6 (by decide)), u8n]
  have h1 := hf.blocks
  omega

theorem profile_eq : profile b = f.object := by
  unfold profile
  rw [at2 hf hp]
  have h1 := hf.object; have h2 := hf.rate; have h3 := hf.chans
  cases f.priv <;> simp only [if_true, if_false, Bool.false_eq_true] <;> omega

theorem freqIndex_eq : freqIndex b = f.rate := by
  unfold freqIndex
  rw [at2 hf hp]
  have h1 := hf.object; have h2 := hf.rate; have h3 := hf.chans
  cases f.priv <;> simp only [if_true, if_false, Bool.false_eq_true] <;> omega

theorem freq_eq : freq b = f.hz ∧ 0 < f.hz := by
  have h2 := hf.rate
  unfold freq Frame.hz
  rw [freqIndex_eq hf hp]
  match f.rate, h2 with
  | 0, _ | 1, _ | 2, _ | 3, _ | 4, _ | 5, _ | 6, _ | 7, _ | 8, _ | 9, _ | 10, _ | 11, _ | 12, _ => exact ⟨rfl, by decide⟩

theorem chanConfig_eq : chanConfig b = f.chans := by
  unfold chanConfig
  rw [at2 hf hp, at3 hf hp]
  have h1 := hf.object; have h2 := hf.rate; have h3 := hf.chans; have h4 := hf.flags; have h5 := hf.size
  cases f.priv <;> simp only [if_true, if_false, Bool.false_eq_true] <;> omega

theorem chanCount_eq : chanCount b = if f.chans = 7 then 8 else f.chans := by
  unfold chanCount
  rw [chanConfig_eq hf hp]

omit hf in
theorem headerSize_eq : headerSize b = f.hsize := by
  unfold headerSize Frame.hsize
  rw [at1 hp]
  cases f.mpeg2 <;> cases f.check <;> simp

theorem completeSize_eq : completeSize b = f.size := by
  unfold completeSize
  rw [at3 hf hp, at4 hp, at5 hf hp]
  have h1 := hf.flags; have h2 := hf.size; have h3 := hf.full; have h4 := hf.chans
  omega

theorem payloadSize_eq : payloadSize b = f.payload.length := by
  unfold payloadSize
  rw [completeSize_eq hf hp, headerSize_eq hp]
  unfold Frame.size
  omega

theorem sampleCount_eq : sampleCount b = f.blocks * 1024 := by
  unfold sampleCount
  rw [at6 hf hp]
  have h1 := hf.blocks
  omega

theorem duration_eq : duration b = f.ms := by
  unfold duration Frame.ms
  rw [sampleCount_eq hf hp, (freq_eq hf hp).1]

omit hf in
theorem sync : hasSync b = true := by
  unfold hasSync
  rw [at0 hp, at1 hp]
  cases f.mpeg2 <;> cases f.check <;> simp

theorem valid_eq (hl : f.hsize ≤ b.length) : valid b = some true := by
  have h9 := hsize_cases f
  have h1 := (freq_eq hf hp)
  have h2 := hf.chans
  have h3 := hf.blocks
  unfold valid
  rw [if_neg (by omega), if_neg (by omega), sync hp, headerSize_eq hp, chanCount_eq hf hp, sampleCount_eq hf hp, h1.1]
  have : (if f.chans = 7 then 8 else f.chans) ≠ 0 := by split <;> omega
  simp only [hl, decide_true, Bool.and_true, Bool.true_and, this, ne_eq, not_false_eq_true]
  have a : ¬ f.hz = 0 := by omega
  have c : ¬ f.blocks * 1024 = 0 := by omega
  simp [a, c]

theorem init_eq : init b = [UInt8.ofNat (f.config / 256), UInt8.ofNat f.config] := by
  have h1 := hf.object; have h2 := hf.rate; have h3 := hf.chans
  unfold init Frame.config
  rw [profile_eq hf hp, freqIndex_eq hf hp, chanConfig_eq hf hp]
  have e1 : UInt8.ofNat (f.object % 32 * 8 + f.rate % 16 / 2) = UInt8.ofNat ((f.object * 2 ^ 11 + f.rate * 2 ^ 7 + f.chans * 2 ^ 3) / 256) := by
    congr 1; omega
  have e2 : UInt8.ofNat (f.rate % 2 * 128 + f.chans % 16 * 8) = UInt8.ofNat (f.object * 2 ^ 11 + f.rate * 2 ^ 7 + f.chans * 2 ^ 3) := by
    refine UInt8.toNat_inj.1 ?_
    rw [u8n, u8n]; omega
  rw [e1, e2]
end

/-- The payload is behind the header. -/
theorem payload_eq (f : Frame) (u : Bytes) (k : Nat) (hk : k ≤ f.payload.length) : ((f.bytes ++ u).drop f.hsize).take k = f.payload.take k := by
  have : (f.bytes ++ u).drop f.hsize = f.payload ++ u := by
    unfold Frame.bytes Frame.hsize
    cases f.check with
    | none => rfl
    | some c => rfl
  rw [this, List.take_append_of_le_length hk]

theorem size_pos {f : Frame} (hf : f.Ok) : f.hsize < f.size := by
  have := hf.some
  have : 0 < f.payload.length := List.length_pos_iff.2 this
  unfold Frame.size
  omega

end Verif.Aac
