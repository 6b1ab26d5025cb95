import Verif.Model.RustFrames
import Verif.Spec.Interop
import Verif.Props.Frames

/-!
# C68, C69: frames between Go and Rust peers
-/

namespace Iota.Props.RustFrames
open Iota.Go Iota.Frames Iota.Spec.RSocket Iota.Spec.Interop Iota.Props.Frames

/-! ## Encoding -/

theorem newHeader_same (s : UInt32) (t : FrameType) (f : FrameFlag) : Rust.newHeader s t f = Frames.newHeader s t f := rfl

theorem flag_md (md : Bytes) (h : md.length < 2 ^ 24) :
    (if u32len md.length > 0 then Frames.flagMetadata else 0) = if md.isEmpty then 0 else Rust.flagMetadata := by
  rw [u32len_of_lt (by omega)]
  cases md <;> simp [Rust.flagMetadata, Frames.flagMetadata]

theorem payloadFlags_same (f : Payload) (h : f.metadata.length < 2 ^ 24) : Rust.payloadFlags f = f.flags := by
  unfold Rust.payloadFlags Payload.flags
  rw [flag_md _ h]
  generalize f.metadata.isEmpty = m
  cases m <;> cases f.complete <;> cases f.next <;> cases f.follows <;> decide

theorem requestFlags_same (f : RequestPayload) (h : f.metadata.length < 2 ^ 24) : Rust.requestFlags f = f.flags := by
  unfold Rust.requestFlags RequestPayload.flags
  rw [flag_md _ h, Bool.and_comm]
  generalize f.metadata.isEmpty = m
  generalize (f.frameType == tRequestChannel && f.complete) = c
  cases m <;> cases c <;> decide

theorem encodeBody_wire (md data : Bytes) (h : md.length < 2 ^ 24) : Rust.encodeBody md data = body md data := by
  unfold Rust.encodeBody body
  cases md with
  | nil => rfl
  | cons a t =>
    simp only [List.isEmpty_cons, if_false, reduceCtorEq, Rust.toU24, be32, Bool.false_eq_true]
    rw [show (UInt32.ofNat (a :: t).length).toNat = (a :: t).length by simp at h ⊢; omega, beBytes4_drop]

/-- The Rust encoder writes the RSocket wire image, with the follow bit of requests cleared. -/
theorem rust_encode_wire (f : Frame) (hl : Legal f) : Rust.encode f = wire (dropRequestFollows f) := by
  cases f with
  | cancel f =>
    simp only [Rust.encode, newHeader_same, dropRequestFollows, wire]
    rw [newHeader_eq _ (by decide) (by decide)]; rfl
  | requestN f =>
    simp only [Rust.encode, newHeader_same, dropRequestFollows, wire]
    rw [newHeader_eq _ (by decide) (by decide)]; rfl
  | error f =>
    simp only [Rust.encode, newHeader_same, dropRequestFollows, wire]
    rw [newHeader_eq _ (by decide) (by decide)]; rfl
  | payload f =>
    obtain ⟨_, hmd, _⟩ := hl
    simp only [Rust.encode, newHeader_same, dropRequestFollows, wire, encodeBody_wire _ _ hmd, payloadFlags_same f hmd]
    rw [newHeader_eq _ (by decide) (f.flags_lt (by omega)), f.flags_toNat (by omega)]; rfl
  | request f =>
    obtain ⟨_, hmd, _, h1, h2⟩ := hl
    simp only [Rust.encode, newHeader_same, dropRequestFollows, wire, encodeBody_wire _ _ hmd, requestFlags_same f hmd]
    rw [newHeader_eq _ (by omega) (f.flags_lt (by omega)), f.flags_toNat (by omega)]
    have hi : (if Rust.isMulti f.frameType then be32 f.initialN else []) =
        initialN f.frameType.toNat f.initialN.toNat := by
      have : Rust.isMulti f.frameType = hasInitialN f.frameType := by
        simp [Rust.isMulti, hasInitialN, Bool.or_comm]
      rw [this, hasInitialN_eq]
      simp [initialN, be32]
    rw [hi]
    simp [bit]

/-- **C68** A Go peer and a Rust peer put exactly the same bytes on the wire for the same frame: whatever buffer the Go
side is given, its first `Size()` bytes are what the Rust side sends. -/
theorem same_bytes (f : Frame) (hl : Legal f) (buf : Bytes) (hb : f.size ≤ buf.length) :
    (Rust.encode f).length = f.size ∧ f.encode buf = .ok (Rust.encode f ++ buf.drop f.size) := by
  rw [rust_encode_wire f hl]
  exact encode_wire f hl buf hb

example : Rust.encode (.request ⟨tRequestChannel, 7, [1, 2, 3], [4, 5], true, true, 9⟩) =
    [0, 0, 0, 7, 0x1d, 0x40, 0, 0, 0, 9, 0, 0, 3, 1, 2, 3, 4, 5] := by decide

/-! ## Decoding -/

theorem streamId_same (b0 b1 b2 b3 b4 b5 : UInt8) :
    Rust.streamId [b0, b1, b2, b3, b4, b5] = Header.streamID [b0, b1, b2, b3, b4, b5] := by
  apply UInt32.toNat_inj.mp
  rw [Header.streamID, mask31, Rust.streamId]
  have e : (b0 &&& 0x7f).toNat = b0.toNat % 128 := by
    have : (0x7f : UInt8).toNat = 2 ^ 7 - 1 := by decide
    rw [UInt8.toNat_and, this, Nat.and_two_pow_sub_one_eq_mod]
  simp [beNat, e]
  have := b0.toNat_lt
  have := b1.toNat_lt
  have := b2.toNat_lt
  have := b3.toNat_lt
  omega

theorem type_same (b0 b1 b2 b3 b4 b5 : UInt8) :
    ([b0, b1, b2, b3, b4, b5] : Bytes).getD 4 0 >>> 2 = Header.type [b0, b1, b2, b3, b4, b5] := by
  apply UInt8.toNat_inj.mp
  rw [Header.type, UInt16.toNat_toUInt8, word_type, Header.n]
  have := b4.toNat_lt
  have := b5.toNat_lt
  simp [beNat, Nat.shiftRight_eq_div_pow]
  omega

theorem check_same (h : Bytes) (flag : UInt16) (hf : flag &&& 0x03FF = flag) :
    Rust.check h flag = FrameFlag.check (Header.flag h) flag := by
  unfold Rust.check FrameFlag.check Header.flag
  congr 1
  rw [UInt16.and_comm (Header.n h), ← UInt16.and_assoc, hf, UInt16.and_comm]
  rfl

theorem decodeBody_same (m : Bool) (b : Bytes) : Rust.decodeBody m b = Frames.decodeBody m b := by
  unfold Rust.decodeBody Frames.decodeBody
  cases m with
  | false => rfl
  | true =>
    simp only [if_true, Rust.splitTo, sliceTo, sliceFrom, Rust.fromU24]
    by_cases h : 3 ≤ b.length
    · have hl : (b.take 3).length = 3 := by simp; omega
      have hlt := beNat_lt (b.take 3)
      rw [hl] at hlt
      have hz : beNat (0 :: b.take 3) = beNat (b.take 3) := by simp [beNat]
      have e : (UInt32.ofNat (beNat (0 :: b.take 3))).toNat = beNat (0 :: b.take 3) := by
        rw [hz]; simp; omega
      simp only [h, if_true, Res.ok_bind, hl, e]
      split <;> simp
    · simp [h]

theorem decodeInitialN_same (t : FrameType) (b : Bytes) :
    (∀ n r, Frames.decodeInitialN t b = .ok (n, r) →
      ∃ n', Rust.decodeInitialN t b = .ok (n', r) ∧ (t.toNat = 6 ∨ t.toNat = 7 → n' = n)) ∧
    (Frames.decodeInitialN t b = .panic → Rust.decodeInitialN t b = .panic) ∧
    (∀ e, Frames.decodeInitialN t b ≠ .err e) := by
  unfold Frames.decodeInitialN Rust.decodeInitialN
  have : Rust.isMulti t = hasInitialN t := by simp [Rust.isMulti, hasInitialN, Bool.or_comm]
  rw [this, hasInitialN_eq]
  by_cases h : t.toNat = 6 ∨ t.toNat = 7
  · simp only [h, decide_true, if_true, getU32, sliceFrom, Rust.splitTo, Rust.fromU32]
    by_cases h4 : 4 ≤ b.length
    · simp [h4]
    · simp [h4]
  · simp [h]

theorem fromU32_take (b : Bytes) (h : 4 ≤ b.length) : Rust.fromU32 (b.take 4) = .ok (UInt32.ofNat (beNat (b.take 4))) := by
  simp [Rust.fromU32, h]

/-- The text of an error frame; other frames have none. -/
def text : Frame → Bytes
  | .error f => f.data
  | _ => []

/-- **C69 (partial)** Full statement: a Go peer and a Rust peer read the same frame from the same bytes. Proved, for every
byte string: whenever the Go side reads a frame, the Rust side reads the same frame, unless it is an error frame whose
text is not UTF-8, which the Rust side rejects; where the Go side crashes, so does the Rust side; and where the Go side
reports an unknown frame, the Rust side crashes (`unknown_type_refuted`). -/
theorem same_reading_partial (raw : Bytes) :
    (∀ f, decodeFrame raw = .ok f →
      (Rust.isUtf8 (text f) = true → ∃ g, Rust.decode raw = .ok g ∧ Same f g) ∧
      (Rust.isUtf8 (text f) = false → ∃ e, Rust.decode raw = .err e)) ∧
    (∀ e, decodeFrame raw = .err e → Rust.decode raw = .panic) ∧
    (decodeFrame raw = .panic → Rust.decode raw = .panic) := by
  have hnil : Rust.isUtf8 [] = true := by
    unfold Rust.isUtf8
    exact ByteArray.validateUTF8_eq_true_iff.mpr ⟨[], rfl⟩
  match raw with
  | b0 :: b1 :: b2 :: b3 :: b4 :: b5 :: rest =>
    have e1 : Rust.splitTo (b0 :: b1 :: b2 :: b3 :: b4 :: b5 :: rest) 6 = .ok ([b0, b1, b2, b3, b4, b5], rest) := by
      simp [Rust.splitTo]
    have e2 : parseHeader (b0 :: b1 :: b2 :: b3 :: b4 :: b5 :: rest) = .ok [b0, b1, b2, b3, b4, b5] := by
      simp [parseHeader, headerLen]
    have e3 : sliceFrom (b0 :: b1 :: b2 :: b3 :: b4 :: b5 :: rest) headerLen = .ok rest := by
      simp [sliceFrom, headerLen]
    have hs := streamId_same b0 b1 b2 b3 b4 b5
    have ht := type_same b0 b1 b2 b3 b4 b5
    generalize hH : ([b0, b1, b2, b3, b4, b5] : Bytes) = H at *
    have hm := check_same H Rust.flagMetadata (by decide)
    have hfo := check_same H Rust.flagFollow (by decide)
    have hco := check_same H Rust.flagComplete (by decide)
    have hne := check_same H Rust.flagNext (by decide)
    rw [decodeFrame, Rust.decode, e1, e2, Res.ok_bind, Res.ok_bind, e3, Res.ok_bind]
    by_cases hty : (Header.type H).toNat ≤ 14 ∨ Header.type H = 63
    · have hft : Rust.frameType H = .ok (Header.type H) := by
        rw [Rust.frameType, ht, if_pos hty]
      simp only [hft, Res.ok_bind]
      unfold Rust.decodeAs
      by_cases hr : isRequestType (Header.type H) = true
      · have hr' : Header.type H = tRequestResponse ∨ Header.type H = tRequestFNF ∨ Header.type H = tRequestStream ∨
            Header.type H = tRequestChannel := by
          simpa [isRequestType, or_assoc] using hr
        simp only [hr, if_true, hr', Rust.decodeRequest, RequestPayload.decode, hft, Res.ok_bind, hm, decodeBody_same, hs,
          hfo, hco]
        obtain ⟨i1, i2, i3⟩ := decodeInitialN_same (Header.type H) rest
        cases hi : Frames.decodeInitialN (Header.type H) rest with
        | ok x =>
          obtain ⟨n, r⟩ := x
          obtain ⟨n', j1, j2⟩ := i1 n r hi
          simp only [Res.ok_bind, j1]
          have ⟨q1, q2⟩ := decodeBody_noPanic (FrameFlag.check (Header.flag H) Rust.flagMetadata) r
          have hfm : Frames.flagMetadata = Rust.flagMetadata := rfl
          rw [hfm]
          cases hd : Frames.decodeBody (FrameFlag.check (Header.flag H) Rust.flagMetadata) r with
          | ok y =>
            simp only [Res.ok_bind, Res.pure_eq, Res.ok.injEq, reduceCtorEq, false_implies, implies_true, and_true]
            intro f hf
            subst hf
            refine ⟨fun _ => ⟨_, rfl, rfl, rfl, rfl, rfl, rfl, ?_, fun h => (j2 h).symm⟩, fun h => ?_⟩
            · intro h7
              have : Header.type H = tRequestChannel := UInt8.toNat_inj.mp h7
              simp [this]
              rfl
            · simp only [text] at h
              rw [hnil] at h
              cases h
          | err e => exact absurd hd (q2 e)
          | panic => simp
        | err e => exact absurd hi (i3 e)
        | panic => simp [i2 hi]
      · have hr' : ¬ (Header.type H = tRequestResponse ∨ Header.type H = tRequestFNF ∨ Header.type H = tRequestStream ∨
            Header.type H = tRequestChannel) := by
          simpa [isRequestType, or_assoc] using hr
        simp only [hr, if_false, hr', Bool.false_eq_true]
        by_cases h8 : Header.type H = tRequestN
        · simp only [h8, beq_self_eq_true, if_true, RequestN.decode, Rust.decodeRequestN, Rust.splitTo, getU32]
          by_cases h4 : 4 ≤ rest.length
          · simp only [h4, if_true, Res.ok_bind, fromU32_take rest h4, Res.pure_eq, hs]
            simp [text, hnil, Same]
          · simp [h4]
        · simp only [beq_iff_eq, h8, if_false]
          by_cases h9 : Header.type H = tCancel
          · simp only [h9, if_true, Cancel.decode, Res.ok_bind, Res.pure_eq, hs]
            simp [text, hnil, Same]
          · simp only [h9, if_false]
            by_cases h10 : Header.type H = tPayload
            · simp only [h10, if_true, Payload.decode, Rust.decodePayload, hm, hfo, hco, hne, hs, decodeBody_same]
              have ⟨q1, q2⟩ := decodeBody_noPanic (FrameFlag.check (Header.flag H) Rust.flagMetadata) rest
              have hfm : Frames.flagMetadata = Rust.flagMetadata := rfl
              rw [hfm]
              cases hd : Frames.decodeBody (FrameFlag.check (Header.flag H) Rust.flagMetadata) rest with
              | ok y =>
                simp only [Res.ok_bind, Res.pure_eq, Res.ok.injEq, reduceCtorEq, false_implies, implies_true, and_true]
                intro f hf
                subst hf
                exact ⟨fun _ => ⟨_, rfl, rfl⟩, fun h => by simp [text, hnil] at h⟩
              | err e => exact absurd hd (q2 e)
              | panic => simp
            · simp only [h10, if_false]
              by_cases h11 : Header.type H = tError
              · simp only [h11, if_true, Error.decode, Rust.decodeError, Rust.splitTo, getU32, sliceFrom]
                by_cases h4 : 4 ≤ rest.length
                · simp only [h4, if_true, Res.ok_bind, fromU32_take rest h4, Res.pure_eq, hs]
                  simp only [Res.ok.injEq, reduceCtorEq, false_implies, implies_true, and_true]
                  intro f hf
                  subst hf
                  simp only [text]
                  exact ⟨fun h => ⟨_, by rw [if_pos h], rfl⟩, fun h => ⟨_, by rw [h]; rfl⟩⟩
                · simp [h4]
              · simp [h11]
    · have hft : Rust.frameType H = .panic := by rw [Rust.frameType, ht, if_neg hty]
      simp only [hft, Res.panic_bind, implies_true, and_true]
      have ne : ∀ c : FrameType, c.toNat ≤ 14 → Header.type H ≠ c := by
        intro c hc h
        exact hty (Or.inl (h ▸ hc))
      have n4 := ne tRequestResponse (by decide)
      have n5 := ne tRequestFNF (by decide)
      have n6 := ne tRequestStream (by decide)
      have n7 := ne tRequestChannel (by decide)
      have n8 := ne tRequestN (by decide)
      have n9 := ne tCancel (by decide)
      have n10 := ne tPayload (by decide)
      have n11 := ne tError (by decide)
      simp [isRequestType, n4, n5, n6, n7, n8, n9, n10, n11]
  | [] => simp [decodeFrame, Rust.decode, parseHeader, Rust.splitTo, headerLen]
  | [_] => simp [decodeFrame, Rust.decode, parseHeader, Rust.splitTo, headerLen]
  | [_, _] => simp [decodeFrame, Rust.decode, parseHeader, Rust.splitTo, headerLen]
  | [_, _, _] => simp [decodeFrame, Rust.decode, parseHeader, Rust.splitTo, headerLen]
  | [_, _, _, _] => simp [decodeFrame, Rust.decode, parseHeader, Rust.splitTo, headerLen]
  | [_, _, _, _, _] => simp [decodeFrame, Rust.decode, parseHeader, Rust.splitTo, headerLen]

theorem received_same (f : Frame) (hl : Legal f) : Same (dropRequestFollows f) (received f) := by
  cases f with
  | request f =>
    refine ⟨rfl, rfl, rfl, rfl, rfl, fun h => ?_, fun h => ?_⟩
    · simp only at h ⊢
      rw [if_pos h]
    · simp only at h ⊢
      rw [if_pos h]
  | _ => rfl

theorem same_trans {f g h : Frame} (h1 : Same f g) (h2 : Same g h) : Same f h := by
  cases f <;> cases g <;> cases h <;>
    simp only [Same, reduceCtorEq, Frame.cancel.injEq, Frame.error.injEq, Frame.requestN.injEq, Frame.payload.injEq] at * <;>
    first
    | exact h1.trans h2
    | obtain ⟨a1, a2, a3, a4, a5, a6, a7⟩ := h1
      obtain ⟨b1, b2, b3, b4, b5, b6, b7⟩ := h2
      refine ⟨a1.trans b1, a2.trans b2, a3.trans b3, a4.trans b4, a5.trans b5, fun h => ?_, fun h => ?_⟩
      · exact (a6 h).trans (b6 (a1 ▸ h))
      · exact (a7 h).trans (b7 (a1 ▸ h))

/-- **C69 (partial)** What a Go peer sends, a Rust peer reads as the same frame (error texts being UTF-8, and up to the
follow bit of requests, which no encoder writes). -/
theorem go_to_rust_partial (f : Frame) (hl : Legal f) (ht : Rust.isUtf8 (text f) = true) (buf : Bytes)
    (hb : buf.length = f.size) :
    ∃ w g, f.encode buf = .ok w ∧ Rust.decode w = .ok g ∧ Same (dropRequestFollows f) g := by
  obtain ⟨w, h1, h2⟩ := frame_roundtrip_partial f hl buf hb
  have ht' : Rust.isUtf8 (text (received f)) = true := by cases f <;> exact ht
  obtain ⟨g, h3, h4⟩ := ((same_reading_partial w).1 _ h2).1 ht'
  exact ⟨w, g, h1, h3, same_trans (received_same f hl) h4⟩

example : Legal (.payload ⟨3, [1], [2, 3], true, false, true⟩) ∧
    Legal (.request ⟨tRequestStream, 3, [0, 0, 0, 1, 0, 0, 0, 0], [42], false, true, 100⟩) := by decide

/-- **C69 (partial)** What a Rust peer sends, a Go peer reads as the same frame, and so does another Rust peer. -/
theorem rust_to_go_partial (f : Frame) (hl : Legal f) :
    (∃ g, decodeFrame (Rust.encode f) = .ok g ∧ Same (dropRequestFollows f) g) ∧
    (Rust.isUtf8 (text f) = true → ∃ g, Rust.decode (Rust.encode f) = .ok g ∧ Same (dropRequestFollows f) g) := by
  obtain ⟨h0, h⟩ := same_bytes f hl (List.replicate f.size 0) (by simp)
  have e : f.encode (List.replicate f.size 0) = .ok (Rust.encode f) := by rw [h]; simp
  obtain ⟨w, h1, h2⟩ := frame_roundtrip_partial f hl (List.replicate f.size 0) (by simp)
  rw [e] at h1
  cases h1
  refine ⟨⟨_, h2, received_same f hl⟩, fun ht => ?_⟩
  obtain ⟨w, g, h3, h4, h5⟩ := go_to_rust_partial f hl ht (List.replicate f.size 0) (by simp)
  rw [e] at h3
  cases h3
  exact ⟨g, h4, h5⟩

/-- The hypothesis on error texts holds of every Lean string's UTF-8 encoding. -/
theorem isUtf8_string (l : List Char) : Rust.isUtf8 (l.flatMap String.utf8EncodeChar) = true := by
  unfold Rust.isUtf8
  refine ByteArray.validateUTF8_eq_true_iff.mpr ⟨l, ?_⟩
  rw [List.utf8Encode]
  apply ByteArray.ext; simp

/-- **C69 is false of the code**: an error frame from a Go peer whose text is not UTF-8 (a Go error may carry any bytes)
is not readable by a Rust peer, although the Go side reads it. -/
theorem error_text_refuted : ∃ f : Frame, Legal f ∧ decodeFrame (Rust.encode f) = .ok f ∧
    f.encode (List.replicate f.size 0) = .ok (Rust.encode f) ∧ ∃ e, Rust.decode (Rust.encode f) = .err e := by
  refine ⟨.error ⟨3, 0x201, [0xff]⟩, by decide, by decide, by decide, "Could not read string bytes", ?_⟩
  decide +kernel

/-- **C69 is false of the code**: on a frame of a kind it does not know, a Go peer reports an error and a Rust peer
crashes. -/
theorem unknown_type_refuted : decodeFrame [0, 0, 0, 1, 0x0c, 0] = .err "unknown frame" ∧
    Rust.decode [0, 0, 0, 1, 0x0c, 0] = .panic ∧ Rust.decode [0, 0, 0, 1, 0x3c, 0] = .panic := by decide

/-- **C69 is false of the code** in the fields a frame kind does not carry: a request for one result is read by a Go peer
as completed with demand one, and by a Rust peer as not completed with demand zero. -/
theorem request_defaults_refuted : ∃ w f g, Rust.encode f = w ∧ decodeFrame w = .ok (.request ⟨4, 1, [], [7], false, true, 1⟩) ∧
    Rust.decode w = .ok g ∧ g = .request ⟨4, 1, [], [7], false, false, 0⟩ :=
  ⟨_, .request ⟨4, 1, [], [7], false, false, 0⟩, _, rfl, by decide, by decide, rfl⟩

end Iota.Props.RustFrames
