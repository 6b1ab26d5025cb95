import Verif.Lemmas.Frames
import Verif.Spec.Fragment

/-! # C05, C06: fragmentation -/

namespace Iota.Props.Fragment
open Iota.Go Iota.Frames Iota.Spec.RSocket Iota.Spec.Fragment

theorem wire_payload_length (p : Payload) : (wire (.payload p)).length =
    6 + (if p.metadata = [] then 0 else 3) + p.metadata.length + p.data.length := by
  simp [wire, header, length_body]; omega

theorem sub32_of_le {a b : Nat} (h : b ≤ a) (ha : a < 4294967296) : sub32 a b = a - b := by
  unfold sub32; omega

/-- The maximum leaves room for at least one byte per frame. -/
def Room (max : Nat) (md : Bytes) : Prop := 10 ≤ max ∨ (7 ≤ max ∧ md = [])

/-- The loop terminates within one iteration per remaining byte and yields a legal run of frames that
reassembles to the input. -/
theorem splitPayloads_spec (s : UInt32) (next complete : Bool) (max : Nat) (hmax : max < 4294967296) :
    ∀ (n : Nat) (md data : Bytes), md.length + data.length = n → 0 < n → n + 9 < 4294967296 →
      Room max md → ∀ fuel, n < fuel →
      ∃ fs, splitPayloads s next complete max fuel md data = some fs ∧
        Continuation s next complete max fs ∧ joinMetadata fs = md ∧ joinData fs = data := by
  intro n
  induction n using Nat.strongRecOn with
  | ind n ih =>
    intro md data hn hpos hlt hroom fuel hf
    obtain ⟨fuel, rfl⟩ : ∃ k, fuel = k + 1 := ⟨fuel - 1, by omega⟩
    have hm : u32len md.length = md.length := u32len_of_lt (by omega)
    have hd : u32len data.length = data.length := u32len_of_lt (by omega)
    have hnz : u32len (md.length + data.length) ≠ 0 := by rw [u32len_of_lt (by omega)]; omega
    have hmd0 : md = [] ↔ md.length = 0 := List.length_eq_zero_iff.symm
    have hspace : sub32 max (headerLen + if md.length > 0 then 3 else 0) =
        max - (6 + if md.length > 0 then 3 else 0) := by
      rw [sub32_of_le _ hmax]; · rfl
      unfold Room at hroom; rw [hmd0] at hroom
      simp only [headerLen]; split <;> omega
    have hfol : u32len (headerLen + (if md.length > 0 then 3 else 0) + md.length + data.length) =
        6 + (if md.length > 0 then 3 else 0) + md.length + data.length := by
      simp only [headerLen]; rw [u32len_of_lt]; split <;> omega
    have hroom' : (10 ≤ max) ∨ (7 ≤ max ∧ md.length = 0) := by
      unfold Room at hroom; rwa [hmd0] at hroom
    simp only [splitPayloads, splitStep, hm, hd, if_neg hnz, hspace, hfol]
    generalize hk : (if md.length > 0 then 3 else 0) = k at *
    have hk' : k = 0 ∧ md.length = 0 ∨ k = 3 ∧ 0 < md.length := by
      split at hk <;> omega
    have hkw : (if md = [] then 0 else 3) = k := by
      rw [← hk]; cases md <;> simp
    by_cases c1 : md.length > max - (6 + k)
    · -- metadata does not fit
      have hsp : 0 < max - (6 + k) := by omega
      have hfl : decide (6 + k + md.length + data.length > max) = true := by simp; omega
      simp only [c1, if_true, hfl]
      have hlen : (md.drop (max - (6 + k))).length + data.length = n - (max - (6 + k)) := by
        simp; omega
      obtain ⟨fs, h1, h2, h3, h4⟩ := ih (n - (max - (6 + k))) (by omega) _ data hlen (by omega) (by omega)
        (by unfold Room; left; omega) fuel (by omega)
      refine ⟨_, by rw [h1]; rfl, ?_, ?_, ?_⟩
      · refine ⟨?_, ?_, ?_, ?_⟩
        · intro p hp
          rcases List.mem_cons.mp hp with rfl | hp
          · rw [wire_payload_length]; simp only [List.length_nil, List.length_take]
            split <;> omega
          · exact h2.fits p hp
        · intro p hp
          rcases List.mem_cons.mp hp with rfl | hp
          · simp; omega
          · exact h2.nonempty p hp
        · intro p hp
          rcases List.mem_cons.mp hp with rfl | hp
          · rfl
          · exact h2.stream p hp
        · obtain ⟨init, last, e, q1, q2⟩ := h2.flags
          refine ⟨_ :: init, last, by rw [e]; rfl, ?_, q2⟩
          intro p hp
          rcases List.mem_cons.mp hp with rfl | hp
          · simp
          · exact q1 p hp
      · simp only [joinMetadata, List.flatMap_cons] at h3 ⊢; rw [h3, List.take_append_drop]
      · simp only [joinData, List.flatMap_cons] at h4 ⊢; rw [h4]; rfl
    · have hsub : sub32 (max - (6 + k)) md.length = max - (6 + k) - md.length :=
        sub32_of_le (by omega) (by omega)
      simp only [c1, if_false, hsub]
      by_cases c2 : data.length > max - (6 + k) - md.length
      · have hfl : decide (6 + k + md.length + data.length > max) = true := by simp; omega
        have hmin : min (max - (6 + k) - md.length) data.length = max - (6 + k) - md.length := by omega
        simp only [c2, if_true, hfl, hmin]
        generalize hq : max - (6 + k) - md.length = q at *
        have hlen : ([] : Bytes).length + (data.drop q).length = data.length - q := by simp
        obtain ⟨fs, h1, h2, h3, h4⟩ := ih (data.length - q) (by omega) [] (data.drop q) hlen (by omega)
          (by omega) (by unfold Room; rcases hroom' with h | h
                         · exact .inl h
                         · exact .inr ⟨h.1, rfl⟩) fuel (by omega)
        refine ⟨_, by rw [h1]; rfl, ?_, ?_, ?_⟩
        · refine ⟨?_, ?_, ?_, ?_⟩
          · intro p hp
            rcases List.mem_cons.mp hp with rfl | hp
            · rw [wire_payload_length]; simp only [List.length_take, hkw]; omega
            · exact h2.fits p hp
          · intro p hp
            rcases List.mem_cons.mp hp with rfl | hp
            · simp only [List.length_take]; omega
            · exact h2.nonempty p hp
          · intro p hp
            rcases List.mem_cons.mp hp with rfl | hp
            · rfl
            · exact h2.stream p hp
          · obtain ⟨init, last, e, q1, q2⟩ := h2.flags
            refine ⟨_ :: init, last, by rw [e]; rfl, ?_, q2⟩
            intro p hp
            rcases List.mem_cons.mp hp with rfl | hp
            · simp
            · exact q1 p hp
        · simp only [joinMetadata, List.flatMap_cons] at h3 ⊢; rw [h3]; simp
        · simp only [joinData, List.flatMap_cons] at h4 ⊢; rw [h4, List.take_append_drop]
      · have hfl : decide (6 + k + md.length + data.length > max) = false := by simp; omega
        simp only [c2, if_false, hfl]
        obtain ⟨fuel, rfl⟩ : ∃ j, fuel = j + 1 := ⟨fuel - 1, by omega⟩
        have : splitPayloads s next complete max (fuel + 1) [] [] = some [] := by
          simp [splitPayloads, splitStep, u32len]
        refine ⟨_, by rw [this]; rfl, ?_, ?_, ?_⟩
        · refine ⟨?_, ?_, ?_, ⟨[], _, rfl, by simp, by simp⟩⟩
          · intro p hp
            rw [List.mem_singleton.mp hp, wire_payload_length]; simp only [hkw]; omega
          · intro p hp; rw [List.mem_singleton.mp hp]; simp only; omega
          · intro p hp; rw [List.mem_singleton.mp hp]
        · simp [joinMetadata]
        · simp [joinData]

/-- **C05** Splitting a payload frame: nothing to do exactly when it already fits; otherwise the loop
terminates and gives a legal run of frames, each within the maximum, that reassembles to the original
metadata and data and ends with the original next/complete bits. -/
theorem payload_fragment (f : Payload) (max : Nat) (hmax : max < 2 ^ 32)
    (hlen : f.metadata.length + f.data.length + 9 < 2 ^ 32)
    (hroom : 10 ≤ max ∨ (7 ≤ max ∧ f.metadata = [])) :
    ∀ fuel, f.metadata.length + f.data.length < fuel →
      ((wire (.payload f)).length ≤ max → f.fragment max fuel = some []) ∧
      (max < (wire (.payload f)).length →
        ∃ fs, f.fragment max fuel = some fs ∧
          Continuation f.streamID f.next f.complete max fs ∧
          joinMetadata fs = f.metadata ∧ joinData fs = f.data) := by
  intro fuel hf
  have hu : u32len f.metadata.length = f.metadata.length := u32len_of_lt (by omega)
  have hsz : f.size = (wire (.payload f)).length := by
    rw [wire_payload_length]
    simp only [Payload.size, headerLen, hu]
    rw [u32len_of_lt]
    · cases f.metadata <;> simp <;> omega
    · split <;> omega
  constructor
  · intro h; simp [Payload.fragment, hsz, h]
  · intro h
    simp only [Payload.fragment, hsz]
    rw [if_neg (by omega)]
    refine splitPayloads_spec f.streamID f.next f.complete max (by omega) _ f.metadata f.data rfl ?_ (by omega) hroom fuel hf
    rw [wire_payload_length] at h
    rcases hroom with hr | ⟨hr, h0⟩
    · split at h <;> omega
    · simp [h0] at h; omega

example : ∃ f : Payload, 10 ≤ 12 ∧ 12 < (wire (.payload f)).length ∧
    f.metadata.length + f.data.length + 9 < 2 ^ 32 :=
  ⟨⟨1, [1, 2, 3, 4, 5], [6, 7, 8, 9], false, true, true⟩, by decide⟩

/-- With a maximum of nine bytes and metadata present the loop never ends (every iteration emits an
empty frame); the lower bound of ten in `payload_fragment` is sharp. -/
theorem payload_fragment_diverges (fuel : Nat) :
    Payload.fragment ⟨1, [1], [], false, true, true⟩ 9 fuel = none := by
  have : Payload.fragment ⟨1, [1], [], false, true, true⟩ 9 fuel =
      splitPayloads 1 true true 9 fuel [1] [] := rfl
  rw [this]
  clear this
  induction fuel with
  | zero => rfl
  | succ n ih =>
    have e : splitStep 1 true true 9 [1] [] =
        some (⟨1, [], [], true, false, false⟩, [1], []) := by decide
    have e2 : splitPayloads 1 true true 9 (n + 1) [1] [] =
        (splitPayloads 1 true true 9 n [1] []).map (⟨1, [], [], true, false, false⟩ :: ·) := by
      simp [splitPayloads, e]
    rw [e2, ih]; rfl

theorem wire_request_length (f : RequestPayload) : (wire (.request f)).length =
    6 + (if hasInitialN f.frameType then 4 else 0) + (if f.metadata = [] then 0 else 3) +
      f.metadata.length + f.data.length := by
  have : (initialN f.frameType.toNat f.initialN.toNat).length = if hasInitialN f.frameType then 4 else 0 := by
    rw [hasInitialN_eq, initialN]; split <;> simp [*]
  simp [wire, header, length_body, this]; omega

/-- **C06 (partial)** Full statement: first frame plus continuations reassemble to the original. Proved:
the call terminates without panic, every frame fits, flags and data are right, and the reassembled
metadata is the original *or the original twice*; it is right exactly when the metadata is empty or
fills the first frame. -/
theorem request_fragment_partial (f : RequestPayload) (max : Nat) (hmax : max < 2 ^ 32)
    (hlen : f.metadata.length + f.metadata.length + f.data.length + 13 < 2 ^ 32)
    (hroom : 10 + (if hasInitialN f.frameType then 4 else 0) ≤ max)
    (hbig : max < (wire (.request f)).length) :
    ∀ fuel, f.metadata.length + f.data.length < fuel →
      ∃ first rest, f.fragment max fuel = .ok (some (some (first, rest))) ∧
        (wire (.request first)).length ≤ max ∧
        first.frameType = f.frameType ∧ first.streamID = f.streamID ∧ first.initialN = f.initialN ∧
        first.follows = true ∧ first.complete = false ∧
        Continuation f.streamID true f.complete max rest ∧
        first.data ++ joinData rest = f.data ∧
        first.metadata ++ joinMetadata rest =
          if f.metadata = [] ∨ max ≤ f.metadata.length + 9 + (if hasInitialN f.frameType then 4 else 0)
          then f.metadata else f.metadata ++ f.metadata := by
  intro fuel hf
  have hu : u32len f.metadata.length = f.metadata.length := u32len_of_lt (by omega)
  have hd : u32len f.data.length = f.data.length := u32len_of_lt (by omega)
  have hmd0 : f.metadata = [] ↔ f.metadata.length = 0 := List.length_eq_zero_iff.symm
  have hsz : f.size = (wire (.request f)).length := by
    rw [wire_request_length]
    simp only [RequestPayload.size, headerLen, hu]
    rw [u32len_of_lt]
    · cases f.metadata <;> simp <;> omega
    · split <;> split <;> omega
  rw [wire_request_length] at hbig
  generalize hk : (if hasInitialN f.frameType then 4 else 0) = k at *
  have hk' : k ≤ 4 := by rw [← hk]; split <;> omega
  have hmx : sub32 (sub32 max (headerLen + k)) 3 = max - (9 + k) := by
    have : sub32 max (headerLen + k) = max - (6 + k) :=
      sub32_of_le (by simp only [headerLen]; omega) (by omega)
    rw [this, sub32_of_le (by omega) (by omega)]; omega
  simp only [RequestPayload.fragment]
  rw [if_neg (by rw [hsz, wire_request_length, hk]; omega)]
  simp only [RequestPayload.firstFragment, hk, hmx, hu]
  by_cases c : f.metadata.length ≥ max - (9 + k)
  · simp only [c, if_true, Res.ok_bind]
    have hl : (f.metadata.drop (max - (9 + k))).length + f.data.length =
        f.metadata.length - (max - (9 + k)) + f.data.length := by simp
    obtain ⟨fs, h1, h2, h3, h4⟩ := splitPayloads_spec f.streamID true f.complete max (by omega) _
      (f.metadata.drop (max - (9 + k))) f.data hl
      (by split at hbig <;> omega) (by omega) (by unfold Room; omega) fuel (by omega)
    refine ⟨⟨f.frameType, f.streamID, f.metadata.take (max - (9 + k)), [], true, false, f.initialN⟩,
      fs, by rw [h1]; rfl, ?_, rfl, rfl, rfl, rfl, rfl, h2, ?_, ?_⟩
    · rw [wire_request_length]; simp only [hk, List.length_take, List.length_nil]; split <;> omega
    · simp [h4]
    · rw [h3, if_pos (by right; omega)]; simp
  · simp only [c, if_false, hd]
    have hsz' : f.size = 6 + k + (if f.metadata = [] then 0 else 3) + f.metadata.length + f.data.length := by
      rw [hsz, wire_request_length, hk]
    have hm3 : (if f.metadata = [] then 0 else 3) = 0 ∧ f.metadata.length = 0 ∨
        (if f.metadata = [] then 0 else 3) = 3 ∧ 0 < f.metadata.length := by
      cases f.metadata <;> simp
    have hoff : sub32 f.data.length (sub32 f.size max) = max - (6 + k + (if f.metadata = [] then 0 else 3) + f.metadata.length) := by
      rw [hsz']
      generalize (if f.metadata = [] then 0 else 3) = m3 at *
      rw [sub32_of_le (a := 6 + k + m3 + f.metadata.length + f.data.length) (by omega) (by omega),
        sub32_of_le (by omega) (by omega)]
      omega
    rw [hoff]
    obtain ⟨q, hq⟩ : ∃ q, q = max - (6 + k + (if f.metadata = [] then 0 else 3) + f.metadata.length) := ⟨_, rfl⟩
    rw [← hq]
    have hqle : q < f.data.length := by omega
    have e1 : sliceTo f.data q = .ok (f.data.take q) := by simp [sliceTo]; omega
    have e2 : sliceFrom f.data q = .ok (f.data.drop q) := by simp [sliceFrom]; omega
    simp only [e1, e2, Res.ok_bind, Res.pure_eq]
    obtain ⟨fs, h1, h2, h3, h4⟩ := splitPayloads_spec f.streamID true f.complete max (by omega) _
      f.metadata (f.data.drop q) rfl
      (by simp; omega) (by simp; omega) (by unfold Room; omega) fuel (by simp; omega)
    refine ⟨⟨f.frameType, f.streamID, f.metadata, f.data.take q, true, false, f.initialN⟩,
      fs, by rw [h1]; rfl, ?_, rfl, rfl, rfl, rfl, rfl, h2, ?_, ?_⟩
    · rw [wire_request_length]; simp only [hk, List.length_take]; omega
    · simp [h4]
    · rw [h3]
      by_cases h0 : f.metadata = []
      · simp [h0]
      · rw [if_neg]
        rintro (h | h)
        · exact h0 h
        · omega

example : ∃ f : RequestPayload, 10 + (if hasInitialN f.frameType then 4 else 0) ≤ 20 ∧
    20 < (wire (.request f)).length :=
  ⟨⟨tRequestStream, 1, [1, 2, 3, 4, 5, 6, 7, 8], [9, 10], false, true, 7⟩, by decide⟩

/-- **C06** When the metadata is empty or fills the first frame, the frames reassemble exactly. -/
theorem request_fragment_reassembles_partial (f : RequestPayload) (max : Nat) (hmax : max < 2 ^ 32)
    (hlen : f.metadata.length + f.metadata.length + f.data.length + 13 < 2 ^ 32)
    (hroom : 10 + (if hasInitialN f.frameType then 4 else 0) ≤ max)
    (hbig : max < (wire (.request f)).length)
    (hmd : f.metadata = [] ∨ max ≤ f.metadata.length + 9 + (if hasInitialN f.frameType then 4 else 0)) :
    ∀ fuel, f.metadata.length + f.data.length < fuel →
      ∃ first rest, f.fragment max fuel = .ok (some (some (first, rest))) ∧
        first.metadata ++ joinMetadata rest = f.metadata ∧ first.data ++ joinData rest = f.data := by
  intro fuel hf
  obtain ⟨first, rest, h1, _, _, _, _, _, _, _, h2, h3⟩ :=
    request_fragment_partial f max hmax hlen hroom hbig fuel hf
  exact ⟨first, rest, h1, by rw [h3, if_pos hmd], h2⟩

example : ∃ f : RequestPayload, 20 < (wire (.request f)).length ∧
    20 ≤ f.metadata.length + 9 + (if hasInitialN f.frameType then 4 else 0) ∧ 10 + (if hasInitialN f.frameType then 4 else 0) ≤ 20 :=
  ⟨⟨tRequestStream, 1, [1, 2, 3, 4, 5, 6, 7, 8], [9, 10], false, true, 7⟩, by decide⟩

/-- **C06 (refuted)** Short metadata is sent twice: a receiver that concatenates fragments sees the
metadata `[7]` as `[7, 7]`. -/
theorem request_fragment_duplicates_metadata_refuted :
    ∃ (f first : RequestPayload) (rest : List Payload),
      f.fragment 12 7 = .ok (some (some (first, rest))) ∧
      first.metadata ++ joinMetadata rest ≠ f.metadata :=
  ⟨⟨tRequestResponse, 1, [7], [1, 2, 3, 4, 5], false, true, 1⟩,
   ⟨tRequestResponse, 1, [7], [1, 2], true, false, 1⟩,
   [⟨1, [7], [3, 4], true, false, false⟩, ⟨1, [], [5], false, true, true⟩], by decide +kernel, by decide⟩

end Iota.Props.Fragment
