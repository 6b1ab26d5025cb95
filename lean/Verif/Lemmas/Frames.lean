import Verif.Model.Frames
import Verif.Spec.RSocket

namespace Iota.Frames
open Go Spec.RSocket

/-! ## Header words -/

theorem typeWord_toNat {t : FrameType} {fg : FrameFlag} (ht : t.toNat < 64) (hf : fg.toNat < 1024) :
    (typeWord t fg).toNat = t.toNat * 1024 + fg.toNat := by
  have h1 : t.toNat <<< 10 = t.toNat * 1024 := by rw [Nat.shiftLeft_eq]
  simp only [typeWord, UInt16.toNat_or, UInt16.toNat_shiftLeft, UInt8.toNat_toUInt16]
  have : (10 : UInt16).toNat % 16 = 10 := by decide
  rw [this, Nat.mod_eq_of_lt (by rw [h1]; omega)]
  rw [← Nat.shiftLeft_add_eq_or_of_lt (by simpa using hf), h1]

theorem word_type {w : UInt16} : ((w &&& 0xFC00) >>> 10).toNat = w.toNat / 1024 := by
  have e : (10 : UInt16).toNat % 16 = 10 := by decide
  simp only [UInt16.toNat_shiftRight, UInt16.toNat_and, e]
  have hw : w.toNat < 65536 := w.toNat_lt
  rw [Nat.shiftRight_and_distrib]
  have : (64512 : UInt16).toNat >>> 10 = 2 ^ 6 - 1 := by decide
  rw [this, Nat.and_two_pow_sub_one_eq_mod, Nat.shiftRight_eq_div_pow, Nat.mod_eq_of_lt (by omega)]

theorem word_flag {w : UInt16} : (w &&& 0x03FF).toNat = w.toNat % 1024 := by
  simp only [UInt16.toNat_and]
  have : (1023 : UInt16).toNat = 2 ^ 10 - 1 := by decide
  rw [this, Nat.and_two_pow_sub_one_eq_mod]

theorem mask31 (x : UInt32) : (x &&& 0x7FFFFFFF).toNat = x.toNat % 2147483648 := by
  simp only [UInt32.toNat_and]
  have : (0x7FFFFFFF : UInt32).toNat = 2 ^ 31 - 1 := by decide
  rw [this, Nat.and_two_pow_sub_one_eq_mod]

theorem mask31_of_lt {x : UInt32} (h : x.toNat < 2147483648) : x &&& 0x7FFFFFFF = x := by
  apply UInt32.toNat_inj.mp; rw [mask31, Nat.mod_eq_of_lt h]

@[simp] theorem length_newHeader (s t f) : (newHeader s t f).length = 6 := by simp [newHeader]

theorem header_n (s t f) : Header.n (newHeader s t f) = typeWord t f := by
  simp [Header.n, newHeader, ofNat_beNat_be16, List.take_of_length_le]

theorem header_streamID (s t f) : Header.streamID (newHeader s t f) = s &&& 0x7FFFFFFF := by
  simp [Header.streamID, newHeader, ofNat_beNat_be32]

theorem header_type {t : FrameType} {f : FrameFlag} (s) (ht : t.toNat < 64) (hf : f.toNat < 1024) :
    Header.type (newHeader s t f) = t := by
  apply UInt8.toNat_inj.mp
  have := t.toNat_lt
  rw [Header.type, UInt16.toNat_toUInt8, word_type, header_n, typeWord_toNat ht hf]
  omega

theorem header_flag {t : FrameType} {f : FrameFlag} (s) (ht : t.toNat < 64) (hf : f.toNat < 1024) :
    Header.flag (newHeader s t f) = f := by
  apply UInt16.toNat_inj.mp
  rw [Header.flag, word_flag, header_n, typeWord_toNat ht hf]
  omega

theorem parseHeader_append (s t f) (r : Bytes) :
    parseHeader (newHeader s t f ++ r) = .ok (newHeader s t f) := by
  simp [parseHeader, headerLen]

theorem newHeader_eq {t : FrameType} {fg : FrameFlag} (s : UInt32) (ht : t.toNat < 64)
    (hf : fg.toNat < 1024) : newHeader s t fg = header s.toNat t.toNat fg.toNat := by
  simp [newHeader, header, be32, be16, typeWord_toNat ht hf]

/-! ## Encoding into a buffer -/

theorem resetHeader_append (d o r : Bytes) (s t f) (h : o.length = 6) :
    resetHeader ⟨d, o ++ r⟩ s t f = .ok ⟨d, newHeader s t f ++ r⟩ := by
  obtain ⟨o1, o2, rfl, h1⟩ := exists_split o (n := 4) (by omega)
  simp only [List.length_append] at h
  have e1 := Cur.putAt_append d [] o1 (o2 ++ r) (be32 s) (by simp [h1])
  have e2 := Cur.putAt_append d (be32 s) o2 r (be16 (typeWord t f)) (by simp; omega)
  simp only [List.nil_append, List.length_nil, List.append_assoc, length_be32] at e1 e2
  simp only [resetHeader, List.append_assoc, e1, Res.ok_bind, e2, newHeader]

theorem u32len_of_lt {n : Nat} (h : n < 4294967296) : u32len n = n := Nat.mod_eq_of_lt h

theorem beBytes4_drop (n : Nat) : (beBytes 4 n).drop 1 = beBytes 3 n := rfl

theorem length_body (md data : Bytes) :
    (body md data).length = (if md = [] then 0 else 3) + md.length + data.length := by
  unfold body; split
  · next h => simp [h]
  · simp; omega

theorem encodeBody_append (d o r md data : Bytes) (hmd : md.length < 16777216)
    (ho : o.length = (body md data).length) :
    ∃ c, encodeBody ⟨d, o ++ r⟩ md data = .ok c ∧ c.buf = d ++ body md data ++ r := by
  have hu : u32len md.length = md.length := u32len_of_lt (by omega)
  rw [length_body] at ho
  by_cases h : md = []
  · subst h
    refine ⟨_, rfl, ?_⟩
    have hl : u32len ([] : Bytes).length = 0 := rfl
    simp only [if_true, List.length_nil, Nat.zero_add] at ho
    have := Cur.copy_append d o r data ho
    simp [this, Cur.buf, body]
  · have hpos : 0 < md.length := List.length_pos_iff.mpr h
    simp only [h, if_false] at ho
    obtain ⟨o1, o', rfl, h1⟩ := exists_split o (n := 3) (by omega)
    obtain ⟨o2, o3, rfl, h2⟩ := exists_split o' (n := md.length) (by simp at ho; omega)
    simp only [List.length_append] at ho
    have e1 := Cur.putAt_append d [] o1 (o2 ++ (o3 ++ r)) (beBytes 3 md.length) (by simp [h1])
    have e2 := Cur.adv_append d (beBytes 3 md.length) (o2 ++ (o3 ++ r)) (n := 3) (by simp)
    have e3 := Cur.copy_append (d ++ beBytes 3 md.length) o2 (o3 ++ r) md h2
    have e4 := Cur.adv_append (d ++ beBytes 3 md.length) md (o3 ++ r) (n := md.length) rfl
    have e5 := Cur.copy_append (d ++ beBytes 3 md.length ++ md) o3 r data (by omega)
    simp only [List.nil_append, List.length_nil, List.append_assoc] at e1 e2 e3 e4 e5
    refine ⟨⟨d ++ (beBytes 3 md.length ++ md), data ++ r⟩, ?_, ?_⟩
    · simp only [encodeBody, hu, gt_iff_lt, hpos, if_true, beBytes4_drop, List.append_assoc, e1,
        Res.ok_bind, e2, e3, e4, e5, Res.pure_eq]
    · simp [Cur.buf, body, h]

theorem flag_ite_lt (b : Bool) {f : FrameFlag} (h : f.toNat < 1024) :
    (if b then f else 0).toNat < 1024 := by cases b <;> simp_all

theorem Payload.flags_toNat (f : Payload) (h : f.metadata.length < 16777216) :
    f.flags.toNat = bit (hasMd f.metadata) 256 + bit f.follows 128 + bit f.complete 64 +
      bit f.next 32 := by
  have hu : u32len f.metadata.length = f.metadata.length := u32len_of_lt (by omega)
  simp only [Payload.flags, hu]
  cases hm : f.metadata <;> cases f.follows <;> cases f.complete <;> cases f.next <;>
    simp [hasMd, bit] <;> decide

theorem RequestPayload.flags_toNat (f : RequestPayload) (h : f.metadata.length < 16777216) :
    f.flags.toNat = bit (hasMd f.metadata) 256 +
      bit (f.complete && f.frameType.toNat == 7) 64 := by
  have hu : u32len f.metadata.length = f.metadata.length := u32len_of_lt (by omega)
  have ht : (f.frameType == tRequestChannel) = (f.frameType.toNat == 7) := by
    rw [Bool.eq_iff_iff]; simp [← UInt8.toNat_inj, tRequestChannel]
  simp only [RequestPayload.flags, hu, ht]
  cases hm : f.metadata <;> cases f.complete <;> cases (f.frameType.toNat == 7) <;>
    simp [hasMd, bit] <;> decide

theorem bit_le (b : Bool) (v : Nat) : bit b v ≤ v := by cases b <;> simp [bit]

theorem Payload.flags_lt (f : Payload) (h : f.metadata.length < 16777216) : f.flags.toNat < 1024 := by
  rw [flags_toNat f h]
  have := bit_le (hasMd f.metadata) 256
  have := bit_le f.follows 128
  have := bit_le f.complete 64
  have := bit_le f.next 32
  omega

theorem RequestPayload.flags_lt (f : RequestPayload) (h : f.metadata.length < 16777216) :
    f.flags.toNat < 1024 := by
  rw [flags_toNat f h]
  have := bit_le (hasMd f.metadata) 256
  have := bit_le (f.complete && f.frameType.toNat == 7) 64
  omega

theorem hasInitialN_eq (t : FrameType) : hasInitialN t = decide (t.toNat = 6 ∨ t.toNat = 7) := by
  rw [Bool.eq_iff_iff]
  simp [hasInitialN, tRequestStream, tRequestChannel, ← UInt8.toNat_inj]

end Iota.Frames
