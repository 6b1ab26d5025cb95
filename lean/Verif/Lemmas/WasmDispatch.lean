import Verif.Model.WasmDispatch
import Verif.Props.Frames

/-! # Lemmas: what a step of a WebAssembly peer does -/

namespace Iota.Lemmas.WasmDispatch
open Go Iota.Frames Iota.Registry Iota.Handler Iota.WasmDispatch Iota.Spec.Lookup Iota.Props.Frames

variable {H : Type}

/-- What is done with a frame once it is decoded. -/
def afterDecode (p : Peer H) (f : Frame) : Res (Peer H) :=
  match f with
  | .request v => if v.follows then .ok { p with stash := p.stash ++ [v] } else p.after <$> dispatch p.st none (.request v)
  | f =>
    match getStream p.st f.streamID with
    | none => .ok p
    | some i => p.after <$> dispatch p.st (some i) f

theorem payload_decode_id {h : Header} {d : Bytes} {v : Payload} (e : Payload.decode h d = .ok v) :
    v.streamID = Header.streamID h := by
  simp only [Payload.decode] at e
  cases hb : decodeBody (FrameFlag.check (Header.flag h) flagMetadata) d with
  | ok x => rw [hb] at e; cases e; rfl
  | err m => rw [hb] at e; cases e
  | panic => rw [hb] at e; cases e

theorem error_decode_id {h : Header} {d : Bytes} {v : Frames.Error} (e : Frames.Error.decode h d = .ok v) :
    v.streamID = Header.streamID h := by
  unfold Frames.Error.decode at e
  cases hb : getU32 d with
  | ok x =>
    rw [hb] at e; simp only [Res.ok_bind] at e
    cases hc : sliceFrom d 4 with
    | ok y => rw [hc] at e; cases e; rfl
    | err m => rw [hc] at e; cases e
    | panic => rw [hc] at e; cases e
  | err m => rw [hb] at e; cases e
  | panic => rw [hb] at e; cases e

theorem requestN_decode_id {h : Header} {d : Bytes} {v : RequestN} (e : RequestN.decode h d = .ok v) :
    v.streamID = Header.streamID h := by
  unfold RequestN.decode at e
  cases hb : getU32 d with
  | ok x => rw [hb] at e; cases e; rfl
  | err m => rw [hb] at e; cases e
  | panic => rw [hb] at e; cases e

theorem isRequestType_lt {t : FrameType} (h : isRequestType t = true) : ¬ t ≥ tRequestN := by
  unfold isRequestType at h
  simp only [Bool.or_eq_true, beq_iff_eq] at h
  rcases h with ((h | h) | h) | h <;> subst h <;> decide

/-- Receiving bytes that decode is handling the frame they stand for. -/
theorem recv_decoded {p : Peer H} {data : Bytes} {f : Frame} (hd : decodeFrame data = .ok f) :
    p.recvOne data = afterDecode p f := by
  unfold decodeFrame at hd
  unfold Peer.recvOne
  cases hh : parseHeader data with
  | err m => rw [hh] at hd; cases hd
  | panic => rw [hh] at hd; cases hd
  | ok h =>
    rw [hh] at hd; simp only [Res.ok_bind] at hd ⊢
    cases hs : sliceFrom data headerLen with
    | err m => rw [hs] at hd; cases hd
    | panic => rw [hs] at hd; cases hd
    | ok b =>
      rw [hs] at hd; simp only [Res.ok_bind] at hd ⊢
      split at hd
      · rename_i hr
        rw [if_neg (isRequestType_lt hr)]
        unfold Peer.recvRequest
        rw [if_pos hr]
        cases hv : RequestPayload.decode h b with
        | err m => rw [hv] at hd; cases hd
        | panic => rw [hv] at hd; cases hd
        | ok v => rw [hv] at hd; cases hd; rfl
      · have hn : ∀ {t : FrameType}, Header.type h = t → t ≥ tRequestN → Header.type h ≥ tRequestN := fun e g => e ▸ g
        split at hd
        · rename_i ht
          have ht := eq_of_beq ht
          rw [if_pos (hn ht (by decide))]
          cases hv : RequestN.decode h b with
          | err m => rw [hv] at hd; cases hd
          | panic => rw [hv] at hd; cases hd
          | ok v =>
            rw [hv] at hd; cases hd
            simp only [afterDecode, Frame.streamID, requestN_decode_id hv]
            cases getStream p.st (Header.streamID h) with
            | none => rfl
            | some i => simp only [Peer.recvStream, if_pos ht, hv]; rfl
        · split at hd
          · rename_i h1 ht
            have ht := eq_of_beq ht
            rw [if_pos (hn ht (by decide))]
            cases hd
            simp only [afterDecode, Frame.streamID]
            cases getStream p.st (Header.streamID h) with
            | none => rfl
            | some i => simp only [Peer.recvStream, ht]; rfl
          · split at hd
            · rename_i h1 ht
              have ht := eq_of_beq ht
              rw [if_pos (hn ht (by decide))]
              cases hv : Payload.decode h b with
              | err m => rw [hv] at hd; cases hd
              | panic => rw [hv] at hd; cases hd
              | ok v =>
                rw [hv] at hd; cases hd
                simp only [afterDecode, Frame.streamID, payload_decode_id hv]
                cases getStream p.st (Header.streamID h) with
                | none => rfl
                | some i => simp only [Peer.recvStream, ht, hv]; rfl
            · split at hd
              · rename_i h1 ht
                have ht := eq_of_beq ht
                rw [if_pos (hn ht (by decide))]
                cases hv : Frames.Error.decode h b with
                | err m => rw [hv] at hd; cases hd
                | panic => rw [hv] at hd; cases hd
                | ok v =>
                  rw [hv] at hd; cases hd
                  simp only [afterDecode, Frame.streamID, error_decode_id hv]
                  cases getStream p.st (Header.streamID h) with
                  | none => rfl
                  | some i => simp only [Peer.recvStream, ht, hv]; rfl
              · cases hd

/-- Receiving bytes that do not decode changes nothing, or panics. -/
theorem recv_undecoded {p p' : Peer H} {data : Bytes} (hd : ∀ f, decodeFrame data ≠ .ok f)
    (h : p.recvOne data = .ok p') : p' = p := by
  unfold decodeFrame at hd
  unfold Peer.recvOne at h
  cases hh : parseHeader data with
  | err m => rw [hh] at h; cases h
  | panic => rw [hh] at h; cases h
  | ok hd' =>
    rw [hh] at hd h; simp only [Res.ok_bind] at hd h
    cases hs : sliceFrom data headerLen with
    | err m => rw [hs] at h; cases h
    | panic => rw [hs] at h; cases h
    | ok b =>
      rw [hs] at hd h; simp only [Res.ok_bind] at hd h
      split at h
      · split at h
        · cases h; rfl
        · rename_i hge _ i _
          have hr : isRequestType (Header.type hd') = false := by
            cases e : isRequestType (Header.type hd') with
            | false => rfl
            | true => exact absurd hge (isRequestType_lt e)
          simp only [hr] at hd
          unfold Peer.recvStream at h
          split at h
          · rename_i ht
            rw [ht] at hd
            cases hv : RequestN.decode hd' b with
            | err m => rw [hv] at h; cases h
            | panic => rw [hv] at h; cases h
            | ok v => rw [hv] at hd; exact absurd rfl (hd _)
          · split at h
            · rename_i ht
              rw [ht] at hd
              exact absurd rfl (hd _)
            · split at h
              · rename_i ht
                rw [ht] at hd
                cases hv : Payload.decode hd' b with
                | err m => rw [hv] at h; cases h
                | panic => rw [hv] at h; cases h
                | ok v => rw [hv] at hd; exact absurd rfl (hd _)
              · split at h
                · rename_i ht
                  rw [ht] at hd
                  cases hv : Frames.Error.decode hd' b with
                  | err m => rw [hv] at h; cases h
                  | panic => rw [hv] at h; cases h
                  | ok v => rw [hv] at hd; exact absurd rfl (hd _)
                · cases h; rfl
      · unfold Peer.recvRequest at h
        split at h
        · rename_i hr
          rw [if_pos hr] at hd
          cases hv : RequestPayload.decode hd' b with
          | err m => rw [hv] at h; cases h
          | panic => rw [hv] at h; cases h
          | ok v => rw [hv] at hd; exact absurd rfl (hd _)
        · cases h; rfl

/-- Receiving bytes that crash the decoder panics, unless they are for a stream nobody knows. -/
theorem recv_short {p : Peer H} {data : Bytes} (hd : decodeFrame data = .panic) :
    p.recvOne data = if 6 ≤ data.length ∧ Header.type (data.take 6) ≥ tRequestN ∧
        getStream p.st (Header.streamID (data.take 6)) = none then .ok p else .panic := by
  by_cases h6 : 6 ≤ data.length
  · have hp : parseHeader data = .ok (data.take 6) := by simp [parseHeader, headerLen, h6]
    have hs : sliceFrom data headerLen = .ok (data.drop 6) := by simp [sliceFrom, headerLen, h6]
    unfold Peer.recvOne
    rw [hp, Res.ok_bind, hs, Res.ok_bind]
    unfold decodeFrame at hd
    rw [hp, Res.ok_bind, hs, Res.ok_bind] at hd
    generalize data.take 6 = h at hd ⊢
    generalize data.drop 6 = b at hd ⊢
    simp only [h6, true_and]
    by_cases hge : Header.type h ≥ tRequestN
    · rw [if_pos hge]
      have hr : isRequestType (Header.type h) = false := by
        cases e : isRequestType (Header.type h) with
        | false => rfl
        | true => exact absurd hge (isRequestType_lt e)
      simp only [hr] at hd
      cases hg : getStream p.st (Header.streamID h) with
      | none => simp [hge]
      | some i =>
        simp only [reduceCtorEq, and_false, if_false]
        unfold Peer.recvStream
        split
        · rename_i ht
          rw [ht] at hd
          cases hv : RequestN.decode h b with
          | err m => rw [hv] at hd; cases hd
          | panic => rfl
          | ok v => rw [hv] at hd; cases hd
        · split
          · rename_i ht
            rw [ht] at hd; cases hd
          · split
            · rename_i ht
              rw [ht] at hd
              cases hv : Payload.decode h b with
              | err m => rw [hv] at hd; cases hd
              | panic => rfl
              | ok v => rw [hv] at hd; cases hd
            · split
              · rename_i ht
                rw [ht] at hd
                cases hv : Frames.Error.decode h b with
                | err m => rw [hv] at hd; cases hd
                | panic => rfl
                | ok v => rw [hv] at hd; cases hd
              · rename_i h1 h2 h3 h4
                simp [h1, h2, h3, h4] at hd
    · rw [if_neg hge, if_neg (fun hc => hge hc.1)]
      unfold Peer.recvRequest
      split
      · rename_i hr
        rw [if_pos hr] at hd
        cases hv : RequestPayload.decode h b with
        | err m => rw [hv] at hd; cases hd
        | panic => rfl
        | ok v => rw [hv] at hd; cases hd
      · rename_i hr
        simp only [hr] at hd
        have hne : ∀ t : FrameType, t ≥ tRequestN → (Header.type h == t) = false := by
          intro t ht
          rw [beq_eq_false_iff_ne]
          rintro rfl
          exact hge ht
        rw [hne tRequestN (by decide), hne tCancel (by decide), hne tPayload (by decide), hne tError (by decide)] at hd
        cases hd
  · have hp : parseHeader data = .panic := by simp [parseHeader, headerLen, h6]
    unfold Peer.recvOne
    rw [hp, if_neg (fun hc => h6 hc.1)]
    rfl

theorem payload_no_err (h : Header) (b : Bytes) (m : String) : Payload.decode h b ≠ .err m := by
  intro e
  simp only [Payload.decode] at e
  cases hb : decodeBody (FrameFlag.check (Header.flag h) flagMetadata) b with
  | ok x => rw [hb] at e; cases e
  | err m => exact (decodeBody_noPanic _ _).2 m hb
  | panic => rw [hb] at e; cases e

theorem getU32_no_err (b : Bytes) (m : String) : getU32 b ≠ .err m := by
  unfold getU32; split <;> exact fun h => nomatch h

theorem sliceFrom_no_err (b : Bytes) (n : Nat) (m : String) : sliceFrom b n ≠ .err m := by
  unfold sliceFrom; split <;> exact fun h => nomatch h

theorem error_no_err (h : Header) (b : Bytes) (m : String) : Frames.Error.decode h b ≠ .err m := by
  intro e
  unfold Frames.Error.decode at e
  cases hb : getU32 b with
  | ok x =>
    rw [hb] at e; simp only [Res.ok_bind] at e
    cases hc : sliceFrom b 4 with
    | ok y => rw [hc] at e; cases e
    | err m => exact sliceFrom_no_err _ _ m hc
    | panic => rw [hc] at e; cases e
  | err m => exact getU32_no_err _ m hb
  | panic => rw [hb] at e; cases e

theorem requestN_no_err (h : Header) (b : Bytes) (m : String) : RequestN.decode h b ≠ .err m := by
  intro e
  unfold RequestN.decode at e
  cases hb : getU32 b with
  | ok x => rw [hb] at e; cases e
  | err m => exact getU32_no_err _ m hb
  | panic => rw [hb] at e; cases e

theorem request_no_err (h : Header) (b : Bytes) (m : String) : RequestPayload.decode h b ≠ .err m := by
  intro e
  simp only [RequestPayload.decode] at e
  cases hi : decodeInitialN (Header.type h) b with
  | panic => rw [hi] at e; cases e
  | err m' =>
    unfold decodeInitialN at hi
    split at hi
    · cases hb : getU32 b with
      | ok x =>
        rw [hb] at hi; simp only [Res.ok_bind] at hi
        cases hc : sliceFrom b 4 with
        | ok y => rw [hc] at hi; cases hi
        | err m => exact sliceFrom_no_err _ _ m hc
        | panic => rw [hc] at hi; cases hi
      | err m => exact getU32_no_err _ m hb
      | panic => rw [hb] at hi; cases hi
    · cases hi
  | ok x =>
    rw [hi] at e; simp only [Res.ok_bind] at e
    cases hb : decodeBody (FrameFlag.check (Header.flag h) flagMetadata) x.2 with
    | ok y => rw [hb] at e; cases e
    | err m => exact (decodeBody_noPanic _ _).2 m hb
    | panic => rw [hb] at e; cases e

/-- Receiving bytes of an unknown type changes nothing. -/
theorem recv_unknown {p : Peer H} {data : Bytes} {m : String} (hd : decodeFrame data = .err m) : p.recvOne data = .ok p := by
  unfold decodeFrame at hd
  unfold Peer.recvOne
  by_cases h6 : 6 ≤ data.length
  · have hp : parseHeader data = .ok (data.take 6) := by simp [parseHeader, headerLen, h6]
    have hs : sliceFrom data headerLen = .ok (data.drop 6) := by simp [sliceFrom, headerLen, h6]
    rw [hp, Res.ok_bind, hs, Res.ok_bind] at hd ⊢
    generalize data.take 6 = h at hd ⊢
    generalize data.drop 6 = b at hd ⊢
    dsimp only at hd
    split at hd
    · cases hv : RequestPayload.decode h b with
      | err m => exact absurd hv (request_no_err _ _ _)
      | panic => rw [hv] at hd; cases hd
      | ok v => rw [hv] at hd; cases hd
    rename_i hr
    split at hd
    · cases hv : RequestN.decode h b with
      | err m => exact absurd hv (requestN_no_err _ _ _)
      | panic => rw [hv] at hd; cases hd
      | ok v => rw [hv] at hd; cases hd
    rename_i h1
    split at hd
    · cases hd
    rename_i h2
    split at hd
    · cases hv : Payload.decode h b with
      | err m => exact absurd hv (payload_no_err _ _ _)
      | panic => rw [hv] at hd; cases hd
      | ok v => rw [hv] at hd; cases hd
    rename_i h3
    split at hd
    · cases hv : Frames.Error.decode h b with
      | err m => exact absurd hv (error_no_err _ _ _)
      | panic => rw [hv] at hd; cases hd
      | ok v => rw [hv] at hd; cases hd
    rename_i h4
    simp only [beq_iff_eq] at h1 h2 h3 h4
    split
    · cases getStream p.st (Header.streamID h) with
      | none => rfl
      | some i => simp only [Peer.recvStream, h1, h2, h3, h4, if_false]; rfl
    · simp only [Peer.recvRequest, hr]; rfl
  · have hp : parseHeader data = .panic := by simp [parseHeader, headerLen, h6]
    rw [hp] at hd; cases hd

end Iota.Lemmas.WasmDispatch
