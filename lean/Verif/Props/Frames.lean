import Verif.Lemmas.Frames

/-! # C01 - C04: frame headers and frame codec -/

namespace Iota.Props.Frames
open Iota.Go Iota.Frames Iota.Spec.RSocket

/-! ## C01 -/

/-- **C01** A header takes six bytes, has the RSocket layout, and parses back from the front of any
buffer to the same stream id, type and flags. -/
theorem header_roundtrip (s : UInt32) (t : FrameType) (f : FrameFlag) (r : Bytes)
    (hs : s.toNat < 2 ^ 31) (ht : t.toNat < 64) (hf : f.toNat < 1024) :
    newHeader s t f = header s.toNat t.toNat f.toNat ∧ (newHeader s t f).length = 6 ∧
    ∃ h, parseHeader (newHeader s t f ++ r) = .ok h ∧ h.length = 6 ∧
      Header.streamID h = s ∧ Header.type h = t ∧ Header.flag h = f :=
  ⟨newHeader_eq s ht hf, by simp, _, parseHeader_append s t f r, by simp,
    by rw [header_streamID, mask31_of_lt (by omega)], header_type s ht hf, header_flag s ht hf⟩

example : (2147483647 : UInt32).toNat < 2 ^ 31 ∧ (0x3F : FrameType).toNat < 64 ∧
    (1023 : FrameFlag).toNat < 1024 := by decide

/-- **C01** Whatever six bytes are received, the stream id has no top bit, the type has six bits and
the flags ten bits; and re-building the header reproduces the bytes when the reserved top bit is
clear. -/
theorem header_parse_range (bs : Bytes) (h : Header) (hp : parseHeader bs = .ok h) :
    (Header.streamID h).toNat < 2 ^ 31 ∧ (Header.type h).toNat < 64 ∧
      (Header.flag h).toNat < 1024 ∧
      ((h.headD 0).toNat < 128 →
        newHeader (Header.streamID h) (Header.type h) (Header.flag h) = bs.take 6) := by
  have h1 : (Header.streamID h).toNat < 2 ^ 31 := by rw [Header.streamID, mask31]; omega
  have hw := (Header.n h).toNat_lt
  have ht : (Header.type h).toNat = (Header.n h).toNat / 1024 := by
    rw [Header.type, UInt16.toNat_toUInt8, word_type]; omega
  have hf : (Header.flag h).toNat = (Header.n h).toNat % 1024 := by rw [Header.flag, word_flag]
  refine ⟨h1, by omega, by omega, ?_⟩
  intro hb
  unfold parseHeader headerLen at hp
  split at hp
  case isFalse => exact absurd hp (by simp)
  case isTrue hl =>
    injection hp with hp
    rw [hp]
    have hlen : h.length = 6 := by rw [← hp]; simp; omega
    have hword : typeWord (Header.type h) (Header.flag h) = Header.n h := by
      apply UInt16.toNat_inj.mp
      rw [typeWord_toNat (by omega) (by omega), ht, hf]; omega
    have h4 : (h.take 4).length = 4 := by simp [hlen]
    have hd : ((h.drop 4).take 2).length = 2 := by simp [hlen]
    have hsid : (Header.streamID h).toNat = beNat (h.take 4) := by
      rw [Header.streamID, mask31, UInt32.toNat_ofNat']
      have hb4 : beNat (h.take 4) < 2147483648 := by
        obtain ⟨a, t, rfl⟩ : ∃ a t, h = a :: t := by cases h <;> simp_all
        simp only [List.headD_cons] at hb
        simp only [List.take_succ_cons, beNat]
        have := beNat_lt (t.take 3)
        have e3 : (t.take 3).length = 3 := by simp at hlen ⊢; omega
        rw [e3] at this ⊢
        omega
      omega
    have hn : (Header.n h).toNat = beNat ((h.drop 4).take 2) := by
      rw [Header.n, UInt16.toNat_ofNat']
      have := beNat_lt ((h.drop 4).take 2)
      rw [hd] at this; omega
    rw [newHeader, hword, be32, be16, hsid, hn]
    have e1 := beBytes_beNat (h.take 4)
    have e2 := beBytes_beNat ((h.drop 4).take 2)
    rw [h4] at e1; rw [hd] at e2
    rw [e1, e2]
    have : (h.drop 4).take 2 = h.drop 4 := List.take_of_length_le (by simp [hlen])
    rw [this, List.take_append_drop]

example : ∃ h, parseHeader [0, 0, 4, 210, 0x29, 0, 7] = .ok h ∧ (h.headD 0).toNat < 128 :=
  ⟨_, rfl, by decide⟩

/-! ## C02, C03 -/

/-- A frame a sender can legally build: 31-bit stream id, metadata within the 24-bit length field,
frame shorter than 4 GiB, and a request frame has one of the four request types. -/
def Legal : Frame → Prop
  | .cancel f => f.streamID.toNat < 2 ^ 31
  | .requestN f => f.streamID.toNat < 2 ^ 31
  | .error f => f.streamID.toNat < 2 ^ 31 ∧ f.data.length + 10 < 2 ^ 32
  | .payload f => f.streamID.toNat < 2 ^ 31 ∧ f.metadata.length < 2 ^ 24 ∧
      f.metadata.length + f.data.length + 9 < 2 ^ 32
  | .request f => f.streamID.toNat < 2 ^ 31 ∧ f.metadata.length < 2 ^ 24 ∧
      f.metadata.length + f.data.length + 13 < 2 ^ 32 ∧ 4 ≤ f.frameType.toNat ∧
      f.frameType.toNat ≤ 7

instance (f : Frame) : Decidable (Legal f) := by cases f <;> unfold Legal <;> infer_instance

/-- The frame with the follow bit of a request cleared: what the request encoder puts on the wire. -/
def dropRequestFollows : Frame → Frame
  | .request f => .request { f with follows := false }
  | f => f

/-- The bytes written are exactly the RSocket wire image (with the follow bit of requests cleared),
and the rest of the buffer is untouched. -/
theorem encode_wire (f : Frame) (hl : Legal f) (buf : Bytes) (hb : f.size ≤ buf.length) :
    (wire (dropRequestFollows f)).length = f.size ∧
    f.encode buf = .ok (wire (dropRequestFollows f) ++ buf.drop f.size) := by
  obtain ⟨o, r, rfl, ho⟩ := exists_split buf hb
  rw [show (o ++ r).drop f.size = r by rw [← ho]; simp]
  cases f with
  | cancel f =>
    have e := resetHeader_append [] o r f.streamID tCancel 0 ho
    refine ⟨by simp [wire, dropRequestFollows, header, Frame.size, headerLen], ?_⟩
    simp only [Frame.encode, Cancel.encode, Cur.start, e, Res.ok_bind, Res.pure_eq, Cur.buf,
      dropRequestFollows, wire]
    rw [newHeader_eq _ (by decide) (by decide)]; rfl
  | requestN f =>
    refine ⟨by simp [wire, dropRequestFollows, header, Frame.size, headerLen], ?_⟩
    obtain ⟨o1, o2, rfl, h1⟩ := exists_split o (n := 6) (by simp [ho, Frame.size, headerLen])
    simp only [List.length_append, Frame.size, headerLen] at ho
    have e := resetHeader_append [] o1 (o2 ++ r) f.streamID tRequestN 0 h1
    have e2 := Cur.adv_append [] (newHeader f.streamID tRequestN 0) (o2 ++ r) (n := headerLen) (by simp [headerLen])
    have e3 := Cur.putAt_append (newHeader f.streamID tRequestN 0) [] o2 r (be32 f.n) (by simp; omega)
    simp only [List.nil_append, List.length_nil] at e2 e3
    simp only [Frame.encode, RequestN.encode, Cur.start, List.append_assoc, e, Res.ok_bind, e2, e3,
      Res.pure_eq, Cur.buf, dropRequestFollows, wire]
    rw [newHeader_eq _ (by decide) (by decide)]; rfl
  | error f =>
    have hsz : (Frame.error f).size = 10 + f.data.length := by
      simp [Frame.size, headerLen]; rw [u32len_of_lt]; unfold Legal at hl; omega
    refine ⟨by rw [hsz]; simp [wire, dropRequestFollows, header]; omega, ?_⟩
    rw [hsz] at ho
    obtain ⟨o1, o', rfl, h1⟩ := exists_split o (n := 6) (by omega)
    obtain ⟨o2, o3, rfl, h2⟩ := exists_split o' (n := 4) (by simp at ho; omega)
    simp only [List.length_append] at ho
    have e := resetHeader_append [] o1 (o2 ++ (o3 ++ r)) f.streamID tError 0 h1
    have e2 := Cur.adv_append [] (newHeader f.streamID tError 0) (o2 ++ (o3 ++ r)) (n := headerLen) (by simp [headerLen])
    have e3 := Cur.putAt_append (newHeader f.streamID tError 0) [] o2 (o3 ++ r) (be32 f.code) (by simp; omega)
    have e4 := Cur.adv_append (newHeader f.streamID tError 0) (be32 f.code) (o3 ++ r) (n := 4) (by simp)
    have e5 := Cur.copy_append (newHeader f.streamID tError 0 ++ be32 f.code) o3 r f.data (by omega)
    simp only [List.nil_append, List.length_nil, List.append_assoc] at e2 e3 e4 e5
    simp only [Frame.encode, Error.encode, Cur.start, List.append_assoc, e, Res.ok_bind, e2, e3, e4,
      e5, Res.pure_eq, Cur.buf, dropRequestFollows, wire]
    rw [newHeader_eq _ (by decide) (by decide)]; rfl
  | payload f =>
    obtain ⟨_, hmd, hsum⟩ := hl
    have hu : u32len f.metadata.length = f.metadata.length := u32len_of_lt (by omega)
    have hsz : (Frame.payload f).size = 6 + (body f.metadata f.data).length := by
      simp only [Frame.size, Payload.size, headerLen, length_body, hu]
      rw [u32len_of_lt]
      · cases f.metadata <;> simp <;> omega
      · split <;> omega
    refine ⟨by rw [hsz]; simp [wire, dropRequestFollows, header]; omega, ?_⟩
    rw [hsz] at ho
    obtain ⟨o1, o2, rfl, h1⟩ := exists_split o (n := 6) (by omega)
    simp only [List.length_append] at ho
    have e := resetHeader_append [] o1 (o2 ++ r) f.streamID tPayload f.flags h1
    have e2 := Cur.adv_append [] (newHeader f.streamID tPayload f.flags) (o2 ++ r) (n := headerLen) (by simp [headerLen])
    obtain ⟨c, e3, e4⟩ := encodeBody_append (newHeader f.streamID tPayload f.flags) o2 r f.metadata f.data
      (by omega) (by omega)
    simp only [List.nil_append] at e2
    simp only [Frame.encode, Payload.encode, Cur.start, List.append_assoc, e, Res.ok_bind, e2, e3,
      Res.pure_eq, e4, dropRequestFollows, wire]
    rw [newHeader_eq _ (by decide) (f.flags_lt (by omega)), f.flags_toNat (by omega)]; rfl
  | request f =>
    obtain ⟨_, hmd, hsum, ht1, ht2⟩ := hl
    have hu : u32len f.metadata.length = f.metadata.length := u32len_of_lt (by omega)
    have hin : (initialN f.frameType.toNat f.initialN.toNat) =
        if hasInitialN f.frameType then be32 f.initialN else [] := by
      rw [hasInitialN_eq]; simp [initialN, be32]
    have hsz : (Frame.request f).size = 6 + (if hasInitialN f.frameType then 4 else 0) +
        (body f.metadata f.data).length := by
      simp only [Frame.size, RequestPayload.size, headerLen, length_body, hu]
      rw [u32len_of_lt]
      · cases f.metadata <;> simp <;> omega
      · split <;> split <;> omega
    have hlen : (initialN f.frameType.toNat f.initialN.toNat).length =
        if hasInitialN f.frameType then 4 else 0 := by rw [hin]; split <;> simp
    refine ⟨by rw [hsz, ← hlen]; simp [wire, dropRequestFollows, header]; omega, ?_⟩
    rw [hsz] at ho
    obtain ⟨o1, o', rfl, h1⟩ := exists_split o (n := 6) (by omega)
    obtain ⟨o2, o3, rfl, h2⟩ := exists_split o' (n := if hasInitialN f.frameType then 4 else 0)
      (by simp at ho; omega)
    simp only [List.length_append] at ho
    have e := resetHeader_append [] o1 (o2 ++ (o3 ++ r)) f.streamID f.frameType f.flags h1
    have e2 := Cur.adv_append [] (newHeader f.streamID f.frameType f.flags) (o2 ++ (o3 ++ r))
      (n := headerLen) (by simp [headerLen])
    obtain ⟨c, e3, e4⟩ := encodeBody_append
      (newHeader f.streamID f.frameType f.flags ++ initialN f.frameType.toNat f.initialN.toNat) o3 r
      f.metadata f.data (by omega) (by omega)
    simp only [List.nil_append] at e2
    have key : encodeInitialN ⟨newHeader f.streamID f.frameType f.flags, o2 ++ (o3 ++ r)⟩
        f.frameType f.initialN =
        .ok (⟨newHeader f.streamID f.frameType f.flags ++ initialN f.frameType.toNat f.initialN.toNat,
          o3 ++ r⟩ : Cur) := by
      rw [hin, encodeInitialN]
      split
      · next hi =>
        simp only [hi, if_true] at h2
        have e5 := Cur.putAt_append (newHeader f.streamID f.frameType f.flags) [] o2 (o3 ++ r)
          (be32 f.initialN) (by simp; omega)
        have e6 := Cur.adv_append (newHeader f.streamID f.frameType f.flags) (be32 f.initialN)
          (o3 ++ r) (n := 4) (by simp)
        simp only [List.nil_append, List.length_nil] at e5
        rw [e5, Res.ok_bind, e6]
      · next hi =>
        simp only [hi] at h2
        have : o2 = [] := List.length_eq_zero_iff.mp (by simpa using h2)
        simp [this]
    simp only [Frame.encode, RequestPayload.encode, Cur.start, List.append_assoc, e, Res.ok_bind, e2,
      key, e3, Res.pure_eq, e4, dropRequestFollows, wire]
    rw [newHeader_eq _ (by omega) (f.flags_lt (by omega)), f.flags_toNat (by omega)]
    simp [bit]

/-- **C03** Encoding a legal frame fills exactly the first `Size()` bytes, with contents that do not
depend on the buffer, and leaves the remaining bytes alone. -/
theorem encode_exact (f : Frame) (hl : Legal f) :
    ∃ w : Bytes, w.length = f.size ∧
      ∀ buf : Bytes, f.size ≤ buf.length → f.encode buf = .ok (w ++ buf.drop f.size) := by
  refine ⟨wire (dropRequestFollows f), ?_, fun buf hb => (encode_wire f hl buf hb).2⟩
  exact (encode_wire f hl (List.replicate f.size 0) (by simp)).1

example : Legal (.request ⟨tRequestChannel, 7, [1, 2, 3], [4, 5], true, true, 9⟩) := by decide

theorem decodeBody_body (md data : Bytes) (h : md.length < 16777216) :
    decodeBody (hasMd md) (body md data) = .ok (md, data) := by
  cases md with
  | nil => simp [decodeBody, hasMd, body]
  | cons a t =>
    have hval : beNat (0 :: beBytes 3 (t.length + 1)) = t.length + 1 := by
      simp only [List.length_cons] at h
      simp only [beNat, UInt8.toNat_zero, Nat.zero_mul, Nat.zero_add]
      rw [beNat_beBytes_of_lt]; omega
    have e1 : sliceTo (beBytes 3 (t.length + 1) ++ (a :: t ++ data)) 3 =
        .ok (beBytes 3 (t.length + 1)) := by simp [sliceTo]
    have e2 : sliceFrom (beBytes 3 (t.length + 1) ++ (a :: t ++ data)) 3 = .ok (a :: t ++ data) := by
      simp [sliceFrom]
    have e3 : sliceTo (a :: t ++ data) (t.length + 1) = .ok (a :: t) := by
      simp [sliceTo]
    have e4 : sliceFrom (a :: t ++ data) (t.length + 1) = .ok data := by
      simp [sliceFrom]
    simp only [decodeBody, hasMd, body, List.isEmpty_cons, Bool.not_false, if_true, List.length_cons,
      reduceCtorEq, if_false, List.append_assoc, e1, Res.ok_bind, hval, e2, e3, e4, Res.pure_eq]

theorem check_flags (m fo co ne : Bool) (fl : FrameFlag)
    (h : fl.toNat = bit m 256 + bit fo 128 + bit co 64 + bit ne 32) :
    FrameFlag.check fl flagMetadata = m ∧ FrameFlag.check fl flagFollow = fo ∧
      FrameFlag.check fl flagComplete = co ∧ FrameFlag.check fl flagNext = ne := by
  have : fl = UInt16.ofNat (bit m 256 + bit fo 128 + bit co 64 + bit ne 32) := by
    rw [← h]; simp
  subst this
  cases m <;> cases fo <;> cases co <;> cases ne <;> decide

theorem slice_header (s t f) (r : Bytes) :
    sliceFrom (newHeader s t f ++ r) headerLen = .ok r := by
  simp [sliceFrom, headerLen]

/-- What a receiver reconstructs from a request frame: RR and FNF carry neither demand nor completion
(they read as 1 and true), and only a channel carries completion. -/
def received : Frame → Frame
  | .request f => .request { f with
      follows := false
      complete := if f.frameType.toNat = 7 then f.complete else true
      initialN := if f.frameType.toNat = 6 ∨ f.frameType.toNat = 7 then f.initialN else 1 }
  | f => f

/-- Decoding the wire image (of any frame, request follow bit included) gives the frame. -/
theorem decode_wire (f : Frame) (hl : Legal f) :
    decodeFrame (wire f) = .ok (match f with
      | .request g => .request { g with
          complete := if g.frameType.toNat = 7 then g.complete else true
          initialN := if g.frameType.toNat = 6 ∨ g.frameType.toNat = 7 then g.initialN else 1 }
      | f => f) := by
  cases f with
  | cancel f =>
    have hw : wire (.cancel f) = newHeader f.streamID tCancel 0 ++ [] := by
      rw [newHeader_eq _ (by decide) (by decide)]; simp [wire]; rfl
    rw [hw, decodeFrame, parseHeader_append, Res.ok_bind, slice_header, Res.ok_bind,
      header_type _ (by decide) (by decide)]
    simp [isRequestType, Cancel.decode, header_streamID, mask31_of_lt hl, tCancel, tRequestResponse, tRequestFNF,
      tRequestStream, tRequestChannel, tRequestN]
  | requestN f =>
    have hw : wire (.requestN f) = newHeader f.streamID tRequestN 0 ++ (be32 f.n ++ []) := by
      rw [newHeader_eq _ (by decide) (by decide)]; simp [wire]; rfl
    rw [hw, decodeFrame, parseHeader_append, Res.ok_bind, slice_header, Res.ok_bind,
      header_type _ (by decide) (by decide)]
    simp only [RequestN.decode, getU32_be32_append]
    simp [isRequestType, header_streamID, mask31_of_lt hl, tRequestResponse, tRequestFNF,
      tRequestStream, tRequestChannel, tRequestN]
  | error f =>
    have hw : wire (.error f) = newHeader f.streamID tError 0 ++ (be32 f.code ++ f.data) := by
      rw [newHeader_eq _ (by decide) (by decide)]; simp [wire]; rfl
    rw [hw, decodeFrame, parseHeader_append, Res.ok_bind, slice_header, Res.ok_bind,
      header_type _ (by decide) (by decide)]
    simp only [Error.decode, getU32_be32_append]
    simp [isRequestType, header_streamID, mask31_of_lt hl.1, tRequestResponse, tRequestFNF, tCancel, tError, tPayload,
      tRequestStream, tRequestChannel, tRequestN, sliceFrom]
  | payload f =>
    obtain ⟨hs, hmd, _⟩ := hl
    have hw : wire (.payload f) = newHeader f.streamID tPayload f.flags ++ body f.metadata f.data := by
      rw [newHeader_eq _ (by decide) (f.flags_lt (by omega)), f.flags_toNat (by omega)]; rfl
    rw [hw, decodeFrame, parseHeader_append, Res.ok_bind, slice_header, Res.ok_bind,
      header_type _ (by decide) (f.flags_lt (by omega))]
    obtain ⟨c1, c2, c3, c4⟩ := check_flags _ _ _ _ _ (f.flags_toNat (by omega))
    simp only [Payload.decode, header_flag _ (show tPayload.toNat < 64 by decide) (f.flags_lt (by omega)),
      c1, c2, c3, c4, decodeBody_body _ _ hmd]
    simp [isRequestType, header_streamID, mask31_of_lt hs, tRequestResponse, tRequestFNF, tCancel, tPayload,
      tRequestStream, tRequestChannel, tRequestN]
  | request f =>
    obtain ⟨hs, hmd, _, ht1, ht2⟩ := hl
    let fl : FrameFlag := UInt16.ofNat (bit (hasMd f.metadata) 256 + bit f.follows 128 +
        bit (f.complete && f.frameType.toNat == 7) 64)
    have hfl : fl.toNat = bit (hasMd f.metadata) 256 + bit f.follows 128 +
        bit (f.complete && f.frameType.toNat == 7) 64 + bit false 32 := by
      have := bit_le (hasMd f.metadata) 256
      have := bit_le f.follows 128
      have := bit_le (f.complete && f.frameType.toNat == 7) 64
      have : bit false 32 = 0 := rfl
      simp only [fl, UInt16.toNat_ofNat']
      omega
    have hlt : fl.toNat < 1024 := by
      have := bit_le (hasMd f.metadata) 256
      have := bit_le f.follows 128
      have := bit_le (f.complete && f.frameType.toNat == 7) 64
      have : bit false 32 = 0 := rfl
      omega
    have hw : wire (.request f) = newHeader f.streamID f.frameType fl ++
        (initialN f.frameType.toNat f.initialN.toNat ++ body f.metadata f.data) := by
      rw [newHeader_eq _ (by omega) hlt, hfl]; simp [wire, bit]
    rw [hw, decodeFrame, parseHeader_append, Res.ok_bind, slice_header, Res.ok_bind,
      header_type _ (by omega) hlt]
    obtain ⟨c1, c2, c3, c4⟩ := check_flags _ _ _ _ _ hfl
    have hreq : isRequestType f.frameType = true := by
      simp only [isRequestType, Bool.or_eq_true, beq_iff_eq, ← UInt8.toNat_inj, tRequestResponse, tRequestFNF,
        tRequestStream, tRequestChannel]
      simp; omega
    have key : decodeInitialN f.frameType
        (initialN f.frameType.toNat f.initialN.toNat ++ body f.metadata f.data) =
        .ok (if f.frameType.toNat = 6 ∨ f.frameType.toNat = 7 then f.initialN else 1,
          body f.metadata f.data) := by
      rw [decodeInitialN, hasInitialN_eq]
      by_cases hi : f.frameType.toNat = 6 ∨ f.frameType.toNat = 7
      · have e : initialN f.frameType.toNat f.initialN.toNat = be32 f.initialN := by
          simp [initialN, hi, be32]
        simp only [hi, decide_true, if_true, e, getU32_be32_append, Res.ok_bind]
        simp [sliceFrom]
      · simp [hi, initialN]
    have hch : (f.frameType == tRequestChannel) = decide (f.frameType.toNat = 7) := by
      rw [Bool.eq_iff_iff]; simp [← UInt8.toNat_inj, tRequestChannel]
    simp only [hreq, if_true, RequestPayload.decode,
      header_flag _ (show f.frameType.toNat < 64 by omega) hlt,
      header_type f.streamID (show f.frameType.toNat < 64 by omega) hlt, key, Res.ok_bind,
      c1, c2, c3, decodeBody_body _ _ hmd, header_streamID, mask31_of_lt hs, Res.pure_eq, hch]
    by_cases h7 : f.frameType.toNat = 7 <;> simp [h7]

/-- **C02 (partial)** Full statement: decoding the encoded bytes gives back every field. Proved: it
does, for every legal frame, up to the follow bit of request frames, which the encoder drops
(`request_follow_lost_refuted`); RR and FNF requests carry no demand and no completion bit. -/
theorem frame_roundtrip_partial (f : Frame) (hl : Legal f) (r : Bytes) (hr : r.length = f.size) :
    ∃ w, f.encode r = .ok w ∧ decodeFrame w = .ok (received f) := by
  obtain ⟨h1, h2⟩ := encode_wire f hl r (by omega)
  refine ⟨wire (dropRequestFollows f), ?_, ?_⟩
  · rw [h2, ← hr]; simp
  · have hl' : Legal (dropRequestFollows f) := by cases f <;> exact hl
    rw [decode_wire _ hl']
    cases f <;> rfl

/-- **C02** All frames other than requests with the follow bit are received exactly as sent
(requests: with the demand/completion values their kind can carry). -/
theorem frame_roundtrip_exact (f : Frame) (hl : Legal f) (r : Bytes) (hr : r.length = f.size)
    (hreq : ∀ g, f = .request g → g.follows = false ∧ (g.frameType ≠ tRequestChannel → g.complete = true) ∧
      (g.frameType ≠ tRequestChannel → g.frameType ≠ tRequestStream → g.initialN = 1)) :
    ∃ w, f.encode r = .ok w ∧ decodeFrame w = .ok f := by
  obtain ⟨w, h1, h2⟩ := frame_roundtrip_partial f hl r hr
  refine ⟨w, h1, ?_⟩
  rw [h2]
  cases f with
  | request g =>
    obtain ⟨a, b, c⟩ := hreq g rfl
    simp only [ne_eq, ← UInt8.toNat_inj, tRequestChannel, tRequestStream] at b c
    simp at b c
    cases g
    simp only [received, Res.ok.injEq, Frame.request.injEq, RequestPayload.mk.injEq, true_and] at *
    refine ⟨a.symm, ?_, ?_⟩
    · split <;> simp_all
    · split <;> simp_all
  | _ => rfl

example : Legal (.request ⟨tRequestStream, 3, [0, 0, 0, 1, 0, 0, 0, 0], [42], false, true, 100⟩) ∧
    Legal (.payload ⟨3, [1], [2, 3], true, false, true⟩) := by decide

/-- **C02 (refuted)** A request frame with the follow bit set is received with it cleared. -/
theorem request_follow_lost_refuted :
    ∃ (f : Frame) (w : Bytes), Legal f ∧ f.encode (List.replicate f.size 0) = .ok w ∧
      ∃ g, decodeFrame w = .ok g ∧ g ≠ f ∧ wire f ≠ w :=
  ⟨.request ⟨tRequestResponse, 1, [], [1], true, true, 1⟩, _, by decide, rfl, _, rfl, by decide,
    by decide⟩

/-- The bytes of a legal frame without a request follow bit are the RSocket wire image. -/
theorem encode_is_rsocket (f : Frame) (hl : Legal f) (hf : dropRequestFollows f = f) (buf : Bytes)
    (hb : buf.length = f.size) : f.encode buf = .ok (wire f) := by
  obtain ⟨_, h2⟩ := encode_wire f hl buf (by omega)
  rw [h2, ← hb, hf]; simp

example : dropRequestFollows (.request ⟨tRequestFNF, 5, [9], [8], false, true, 1⟩) =
    .request ⟨tRequestFNF, 5, [9], [8], false, true, 1⟩ := rfl

/-! ## C04 -/

/-- Enough bytes for the optional metadata block. -/
def mdFits (hasMd : Bool) (p : Bytes) : Prop :=
  hasMd = false ∨ (3 ≤ p.length ∧ beNat (p.take 3) + 3 ≤ p.length)

/-- The received bytes are long enough for what their header announces: six header bytes, then
* types 6 and 7: four bytes of demand and the metadata block,
* types 4, 5 and 10: the metadata block,
* types 8 and 11: four bytes. -/
def LongEnough (raw : Bytes) : Prop :=
  6 ≤ raw.length ∧
  let word := beNat ((raw.drop 4).take 2)
  let type := word / 1024
  let md : Bool := word / 256 % 2 = 1
  let p := raw.drop 6
  ((type = 6 ∨ type = 7) → 4 ≤ p.length ∧ mdFits md (p.drop 4)) ∧
  ((type = 4 ∨ type = 5 ∨ type = 10) → mdFits md p) ∧
  ((type = 8 ∨ type = 11) → 4 ≤ p.length)

theorem decodeBody_noPanic (m : Bool) (p : Bytes) :
    (decodeBody m p = .panic ↔ ¬ mdFits m p) ∧ (∀ e, decodeBody m p ≠ .err e) := by
  unfold decodeBody mdFits
  cases m with
  | false => simp
  | true =>
    simp only [if_true, sliceTo, sliceFrom]
    by_cases h : 3 ≤ p.length
    · simp only [h, if_true, Res.ok_bind, Res.pure_eq]
      have hz : beNat (0 :: p.take 3) = beNat (p.take 3) := by simp [beNat]
      simp only [hz, List.length_drop]
      by_cases h2 : beNat (p.take 3) ≤ p.length - 3
      · simp [h2]; omega
      · simp [h2]; omega
    · simp [h]

theorem two_pow_and_iff (i x : Nat) : 2 ^ i &&& x = 2 ^ i ↔ x.testBit i = true := by
  constructor
  · intro h
    have := congrArg (·.testBit i) h
    simpa [Nat.testBit_and] using this
  · intro h
    apply Nat.eq_of_testBit_eq
    intro j
    rw [Nat.testBit_and, Nat.testBit_two_pow]
    by_cases e : i = j
    · subst e; simp [h]
    · simp [e]

theorem check_md (w : UInt16) : FrameFlag.check (w &&& 0x03FF) flagMetadata =
    decide (w.toNat / 256 % 2 = 1) := by
  unfold FrameFlag.check flagMetadata
  rw [Bool.eq_iff_iff, beq_iff_eq, decide_eq_true_iff, ← UInt16.toNat_inj]
  simp only [UInt16.toNat_and]
  have e1 : ((1:UInt16) <<< 8).toNat = 2 ^ 8 := by decide
  have e2 : (0x03FF : UInt16).toNat = 2 ^ 10 - 1 := by decide
  rw [e1, e2, Nat.and_two_pow_sub_one_eq_mod, two_pow_and_iff, Nat.testBit_eq_decide_div_mod_eq]
  have hw := w.toNat_lt
  by_cases h : w.toNat / 256 % 2 = 1
  · have : (w.toNat % 2 ^ 10) / 2 ^ 8 % 2 = 1 := by omega
    simp [h, this]
  · have : ¬ (w.toNat % 2 ^ 10) / 2 ^ 8 % 2 = 1 := by omega
    simp [h, this]

/-- **C04 (partial)** Full statement: decoding never panics. Proved: it panics exactly on input that is
shorter than its header announces (there is no length check anywhere in the decoder). -/
theorem decode_panics_iff_short_partial (raw : Bytes) :
    decodeFrame raw = .panic ↔ ¬ LongEnough raw := by
  unfold LongEnough
  by_cases h6 : 6 ≤ raw.length
  · have hp : parseHeader raw = .ok (raw.take 6) := by simp [parseHeader, headerLen, h6]
    have hs : sliceFrom raw headerLen = .ok (raw.drop 6) := by simp [sliceFrom, headerLen, h6]
    have hn : Header.n (raw.take 6) = UInt16.ofNat (beNat ((raw.drop 4).take 2)) := by
      rw [Header.n, List.drop_take]; simp [List.take_take]
    have hnlt : beNat ((raw.drop 4).take 2) < 65536 := by
      have := beNat_lt ((raw.drop 4).take 2)
      have : ((raw.drop 4).take 2).length = 2 := by simp; omega
      simp_all
    have hnn : (Header.n (raw.take 6)).toNat = beNat ((raw.drop 4).take 2) := by
      rw [hn, UInt16.toNat_ofNat']; omega
    have htype : (Header.type (raw.take 6)).toNat = beNat ((raw.drop 4).take 2) / 1024 := by
      rw [Header.type, UInt16.toNat_toUInt8, word_type, hnn]; omega
    have hmd : FrameFlag.check (Header.flag (raw.take 6)) flagMetadata =
        decide (beNat ((raw.drop 4).take 2) / 256 % 2 = 1) := by
      rw [Header.flag, check_md, hnn]
    generalize hM : decide (beNat ((raw.drop 4).take 2) / 256 % 2 = 1) = M at hmd
    generalize hT : beNat ((raw.drop 4).take 2) / 1024 = T at htype
    simp only [h6, hM, hT, true_and]
    generalize hP : raw.drop 6 = P
    rw [hP] at hs
    rw [decodeFrame, hp, Res.ok_bind, hs, Res.ok_bind]
    generalize hH : raw.take 6 = H at *
    have tt : ∀ (c : FrameType), (Header.type H == c) = decide (T = c.toNat) := by
      intro c; rw [Bool.eq_iff_iff, beq_iff_eq, ← UInt8.toNat_inj, htype]; simp
    have t1 : tRequestResponse.toNat = 4 := rfl
    have t2 : tRequestFNF.toNat = 5 := rfl
    have t3 : tRequestStream.toNat = 6 := rfl
    have t4 : tRequestChannel.toNat = 7 := rfl
    have t5 : tRequestN.toNat = 8 := rfl
    have t6 : tCancel.toNat = 9 := rfl
    have t7 : tPayload.toNat = 10 := rfl
    have t8 : tError.toNat = 11 := rfl
    simp only [isRequestType, tt, t1, t2, t3, t4, t5, t6, t7, t8]
    by_cases c1 : T = 4 ∨ T = 5 ∨ T = 6 ∨ T = 7
    · have : (decide (T = 4) || decide (T = 5) || decide (T = 6) || decide (T = 7)) = true := by
        simp; omega
      simp only [this, if_true]
      simp only [RequestPayload.decode, decodeInitialN, hasInitialN, tt, t3, t4, hmd]
      by_cases c2 : T = 6 ∨ T = 7
      · have c2' : (decide (T = 6) || decide (T = 7)) = true := by simpa using c2
        have c3 : ¬ (T = 4 ∨ T = 5 ∨ T = 10) := by omega
        have c4 : ¬ (T = 8 ∨ T = 11) := by omega
        simp only [c2', if_true, c2, c3, c4, true_implies, false_implies, and_true]
        by_cases h4 : 4 ≤ P.length
        · simp only [getU32, sliceFrom, h4, if_true, Res.ok_bind, Res.pure_eq, true_and]
          have ⟨q1, q2⟩ := decodeBody_noPanic M (P.drop 4)
          cases hd : decodeBody M (P.drop 4) with
          | ok a => simp [hd] at q1 ⊢; exact q1
          | err e => exact absurd hd (q2 e)
          | panic => simp [hd] at q1 ⊢; exact q1
        · simp [getU32, h4]
      · have c2' : (decide (T = 6) || decide (T = 7)) = false := by simpa using c2
        have c3 : (T = 4 ∨ T = 5 ∨ T = 10) := by omega
        have c4 : ¬ (T = 8 ∨ T = 11) := by omega
        simp only [c2', c2, c3, c4, true_implies, false_implies, and_true, true_and, Res.ok_bind, Res.pure_eq]
        have ⟨q1, q2⟩ := decodeBody_noPanic M P
        cases hd : decodeBody M P with
        | ok a => simp [hd] at q1 ⊢; exact q1
        | err e => exact absurd hd (q2 e)
        | panic => simp [hd] at q1 ⊢; exact q1
    · have : (decide (T = 4) || decide (T = 5) || decide (T = 6) || decide (T = 7)) = false := by
        simp; omega
      simp only [this]
      by_cases c8 : T = 8
      · subst c8
        by_cases h4 : 4 ≤ P.length <;> simp [RequestN.decode, getU32, h4]
      · by_cases c9 : T = 9
        · subst c9; simp [Cancel.decode]
        · by_cases c10 : T = 10
          · subst c10
            simp only [Payload.decode, hmd]
            have ⟨q1, q2⟩ := decodeBody_noPanic M P
            cases hd : decodeBody M P with
            | ok a => simp [hd] at q1 ⊢; exact q1
            | err e => exact absurd hd (q2 e)
            | panic => simp [hd] at q1 ⊢; exact q1
          · by_cases c11 : T = 11
            · subst c11
              by_cases h4 : 4 ≤ P.length <;> simp [Error.decode, getU32, sliceFrom, h4]
            · simp [c8, c9, c10, c11]; omega
  · have hp : parseHeader raw = .panic := by simp [parseHeader, headerLen, h6]
    rw [decodeFrame, hp]; simp [h6]

/-- **C04 (refuted)** A bare six-byte REQUEST_N header, and a PAYLOAD frame whose metadata length
exceeds the frame, both of which pass the connection's length checks, crash the decoder. -/
theorem decode_never_panics_refuted :
    decodeFrame [0, 0, 0, 1, 0x20, 0] = .panic ∧
    decodeFrame [0, 0, 0, 1, 0x29, 0, 0, 0, 9, 1] = .panic := ⟨rfl, rfl⟩

example : LongEnough [0, 0, 0, 1, 0x29, 0, 0, 0, 1, 77, 5] := by
  have h : decodeFrame [0, 0, 0, 1, 0x29, 0, 0, 0, 1, 77, 5] ≠ .panic := by decide
  exact Classical.not_not.mp (fun hn => h ((decode_panics_iff_short_partial _).mpr hn))

end Iota.Props.Frames
