import Verif.Lemmas.Framing
import Verif.Props.Frames
import Verif.Props.U24

/-! # C36, C37, C38, C59: frames on a TCP connection -/

namespace Iota.Props.Framing
open Iota.Go Iota.Frames Iota.U24 Iota.Framing Iota.Spec.Framing Iota.Lemmas.Framing
open Iota.Props.Frames Iota.Spec.RSocket

/-! ## Reading one packet -/

theorem deref_drop (s : Scanner) (g o l k : Nat) :
    s.deref ⟨g, o + k, l - k⟩ = (s.deref ⟨g, o, l⟩).drop k := by
  simp only [Scanner.deref, List.drop_take, List.drop_drop]

theorem packet_length (m : Bytes) : (packet m).length = m.length + 3 := by
  simp [packet]; omega

theorem ready_packet {m : Bytes} (h : Sendable m) (r : Bytes) : Ready (packet m ++ r) := by
  refine ⟨by simp [packet_length]; omega, Or.inr ?_⟩
  rw [ann_packet m r h.2]; simp [packet_length]

theorem readRaw_packet {s : Scanner} (wf : WF s) (he : s.err = none) {m r : Bytes}
    (hr : rest s = packet m ++ r) (hm : Sendable m) (h6 : 6 ≤ m.length) :
    (∃ v s', readRaw s = (.ok v, s') ∧ s'.deref v = m ∧ v.len = m.length ∧ rest s' = r ∧ WF s' ∧
      s'.err = none ∧ s'.rd.together = s.rd.together ∧ s'.rd.final = s.rd.final) ∨
    (s.rd.together = true ∧ ∃ s', readRaw s = (.err (scanFailure (some (.io s.rd.final))), s')) := by
  have ha : ann (packet m ++ r) = m.length := ann_packet m r hm.2
  have hpl := packet_length m
  have h := scan_spec s wf he
  rw [hr] at h
  unfold readRaw
  cases hs : scan s with
  | none => rw [hs] at h; cases h
  | some o =>
    rw [hs] at h
    cases h with
    | token s' v h3 hp hc hd hl hr wf' he' ht hf hg ho =>
      left
      refine ⟨⟨v.gen, v.off + 3, v.len - 3⟩, s', ?_, ?_, ?_, ?_, wf', he', ht, hf⟩
      · simp only
        rw [if_neg (show ¬ v.len < lengthFieldSize by unfold lengthFieldSize; omega),
          if_neg (show ¬ v.len - lengthFieldSize < headerLen by unfold lengthFieldSize headerLen; omega)]
        rfl
      · have e : s'.deref ⟨v.gen, v.off + 3, v.len - 3⟩ = (s'.deref v).drop 3 := deref_drop _ _ _ _ _
        rw [e, hd, ha, List.take_append_of_le_length (by omega), List.take_of_length_le (by omega),
          packet, List.drop_left' (by simp)]
      · simp only; omega
      · rw [hr, ha, List.drop_append_of_le_length (by omega), List.drop_of_length_le (by omega)]; rfl
    | zero s' h3 hz _ => have := hm.1; omega
    | ended s' he' hn =>
      right
      rcases hn with hn | hn
      · exact ⟨hn, s', by simp only [he']⟩
      · exact absurd (ready_packet hm r) hn

/-- Nothing that is only the beginning of a packet is ever handed out. -/
theorem unfinished_not_ready {t : Bytes} (h : Unfinished t) : ¬ Ready t := by
  obtain ⟨m, more, hm, hne, ht⟩ := h
  rintro ⟨h3, hr⟩
  have ha : ann t = m.length := by
    rw [← ann_append t more h3, ht]
    have := ann_packet m [] hm.2
    rwa [List.append_nil] at this
  have hl := congrArg List.length ht
  rw [packet_length, List.length_append] at hl
  have : more.length ≠ 0 := by simpa using hne
  have := hm.1
  omega

theorem readRaw_unfinished {s : Scanner} (wf : WF s) (he : s.err = none) (hr : ¬ Ready (rest s)) :
    ∃ s', readRaw s = (.err (scanFailure (some (.io s.rd.final))), s') := by
  have h := scan_spec s wf he
  unfold readRaw
  cases hs : scan s with
  | none => rw [hs] at h; cases h
  | some o =>
    rw [hs] at h
    cases h with
    | token s' v h3 hp hc => exact absurd ⟨h3, Or.inr hc⟩ hr
    | zero s' h3 hz => exact absurd ⟨h3, Or.inl hz⟩ hr
    | ended s' he' hn => exact ⟨s', by simp only [he']⟩

/-! ## Receiving a stream of encoded frames -/

/-- How the loop ends for each way a connection ends. -/
def endOf : IoErr → End
  | .eof => .eof
  | .closed => .eof
  | .other => .error "read error"

/-- The bytes of a frame as sent. -/
def image (f : Frame) : Bytes := wire (dropRequestFollows f)

theorem image_length {f : Frame} (h : Legal f) : (image f).length = f.size :=
  (encode_wire f h (List.replicate f.size 0) (by simp)).1

theorem image_ge (f : Frame) : 6 ≤ (image f).length := by
  cases f <;> simp [image, wire, dropRequestFollows, header] <;> omega

theorem frameBytes_eq {f : Frame} (h : Legal f) : frameBytes f = .ok (image f) := by
  have := (encode_wire f h (List.replicate f.size 0) (by simp)).2
  rw [frameBytes, this, List.drop_of_length_le (by simp), List.append_nil]; rfl

theorem decode_image {f : Frame} (h : Legal f) : decodeFrame (image f) = .ok (received f) := by
  obtain ⟨w, h1, h2⟩ := frame_roundtrip_partial f h (List.replicate f.size 0) (by simp)
  have : frameBytes f = .ok w := h1
  rw [frameBytes_eq h] at this
  cases this
  exact h2

theorem recv_end {s : Scanner} {e : IoErr} {n : Nat} {s' : Scanner}
    (h : readRaw s = (.err (scanFailure (some (.io e))), s')) :
    (recvAll (n + 1) s).1 = [] ∧ (recvAll (n + 1) s).2.1 = endOf e := by
  have hf : readFrame s = (.err (scanFailure (some (.io e))), s') := by simp only [readFrame, h]
  cases e <;> simp only [recvAll, hf, scanFailure, endOf, and_self]

/-- Every frame is delivered when the end of the stream comes by itself; otherwise a prefix. -/
theorem recv_stream (fs : List Frame) (hl : ∀ f ∈ fs, Legal f ∧ f.size < 2 ^ 24) (t : Bytes)
    (ht : ¬ Ready t) : ∀ (n : Nat), fs.length < n → ∀ (s : Scanner), WF s → s.err = none →
    rest s = stream (fs.map image) ++ t →
      (∃ k, (recvAll n s).1.map Prod.fst = (fs.take k).map received ∧
        (s.rd.together = false → fs.length ≤ k)) ∧
      (recvAll n s).2.1 = endOf s.rd.final := by
  induction fs with
  | nil =>
    intro n hn s wf he hr
    obtain ⟨k, rfl⟩ : ∃ k, n = k + 1 := ⟨n - 1, by simp at hn; omega⟩
    rw [List.map_nil, stream, List.nil_append] at hr
    obtain ⟨s', h⟩ := readRaw_unfinished wf he (by rw [hr]; exact ht)
    obtain ⟨h1, h2⟩ := recv_end (n := k) h
    exact ⟨⟨0, by rw [h1]; rfl, fun _ => Nat.le_refl _⟩, h2⟩
  | cons f fs ih =>
    intro n hn s wf he hr
    obtain ⟨k, rfl⟩ : ∃ k, n = k + 1 := ⟨n - 1, by simp at hn; omega⟩
    obtain ⟨hf, hsz⟩ := hl f (by simp)
    have hil := image_length hf
    have hge := image_ge f
    have hsend : Sendable (image f) := ⟨by omega, by omega⟩
    rw [List.map_cons, stream, List.append_assoc] at hr
    rcases readRaw_packet wf he hr hsend hge with ⟨v, s', hrr, hd, _, hrest, wf', he', ht', hf'⟩ | ⟨htg, s', h⟩
    · have hrf : readFrame s = (.ok (received f, v), s') := by
        simp only [readFrame, hrr, hd, decode_image hf]
      obtain ⟨⟨j, h1, h2⟩, h3⟩ := ih (fun g hg => hl g (by simp [hg])) k (by simp at hn; omega) s' wf' he' hrest
      refine ⟨⟨j + 1, ?_, ?_⟩, ?_⟩
      · simp only [recvAll, hrf, List.map_cons, List.take_succ_cons, h1]
      · intro h; have := h2 (ht'.trans h); simp; omega
      · simp only [recvAll, hrf, h3, hf']
    · obtain ⟨h1, h2⟩ := recv_end (n := k) h
      exact ⟨⟨0, by rw [h1]; rfl, fun hc => by rw [htg] at hc; cases hc⟩, h2⟩

/-! ## Writing -/

/-- Everything written so far, flushed or not. -/
def total (w : Writer) : Bytes := w.sent ++ w.pending

theorem total_write (w : Writer) (p : Bytes) : total (w.write p) = total w ++ p := by
  unfold Writer.write total
  split
  · simp
  · split
    · rename_i h; simp [h]
    · split <;> simp [List.append_assoc]

theorem total_flush (w : Writer) : total w.flush = total w := by simp [total, Writer.flush]

theorem lengthField_eq {f : Frame} (hl : Legal f) (hs : f.size < 2 ^ 24) :
    lengthField f = .ok (beBytes 3 (image f).length) := by
  have hn : (UInt32.ofNat f.size).toNat = f.size := by
    rw [UInt32.toNat_ofNat']; omega
  obtain ⟨n, _, h2, h3, _⟩ := (U24.u24_roundtrip (UInt32.ofNat f.size)).1 (by omega)
  rw [lengthField, h2, Res.ok_bind, h3, hn, image_length hl]; rfl

/-- A frame too large for the length field takes the whole program down. -/
theorem oversize_panics (f : Frame) (h : 2 ^ 24 ≤ f.size) (h2 : f.size < 2 ^ 32) (w : Writer) :
    (Op.len f).run w = .panic := by
  have hn : (UInt32.ofNat f.size).toNat = f.size := by
    rw [UInt32.toNat_ofNat']; omega
  have := ((U24.u24_roundtrip (UInt32.ofNat f.size)).2 (by omega)).2
  simp [Op.run, lengthField, this]

theorem stream_append (a b : List Bytes) : stream (a ++ b) = stream a ++ stream b := by
  induction a with
  | nil => rfl
  | cons m a ih => simp [stream, ih, List.append_assoc]

/-- Writing whole frames one after the other. -/
theorem runOps_sends (sends : List (Frame × Bool)) (rest : List Op)
    (hl : ∀ p ∈ sends, Legal p.1 ∧ p.1.size < 2 ^ 24) : ∀ w : Writer, ∃ w',
    runOps w (sends.flatMap (fun p => sendOps p.1 p.2) ++ rest) = runOps w' rest ∧
      total w' = total w ++ stream (sends.map (fun p => image p.1)) := by
  induction sends with
  | nil => intro w; exact ⟨w, rfl, by simp [stream]⟩
  | cons p ps ih =>
    intro w
    obtain ⟨hf, hs⟩ := hl p (by simp)
    have e1 : (Op.len p.1).run w = .ok (w.write (beBytes 3 (image p.1).length)) := by
      simp [Op.run, lengthField_eq hf hs]
    have e2 : ∀ w : Writer, (Op.body p.1).run w = .ok (w.write (image p.1)) := by
      intro w; simp [Op.run, frameBytes_eq hf]
    have tot : total ((w.write (beBytes 3 (image p.1).length)).write (image p.1)) =
        total w ++ packet (image p.1) := by
      rw [total_write, total_write, packet, List.append_assoc]
    obtain ⟨q, b⟩ := p
    cases b with
    | false =>
      obtain ⟨w', h1, h2⟩ := ih (fun x hx => hl x (by simp [hx]))
        ((w.write (beBytes 3 (image q).length)).write (image q))
      refine ⟨w', ?_, ?_⟩
      · rw [← h1]
        simp only [List.flatMap_cons, sendOps, Bool.false_eq_true, if_false, List.cons_append,
          List.nil_append, runOps, e1, Res.ok_bind, e2, List.append_assoc]
      · rw [h2, tot, List.append_assoc]; rfl
    | true =>
      obtain ⟨w', h1, h2⟩ := ih (fun x hx => hl x (by simp [hx]))
        ((w.write (beBytes 3 (image q).length)).write (image q)).flush
      refine ⟨w', ?_, ?_⟩
      · rw [← h1]
        simp only [List.flatMap_cons, sendOps, if_true, List.cons_append,
          List.nil_append, runOps, e1, Res.ok_bind, e2, List.append_assoc]
        rfl
      · rw [h2, total_flush, tot, List.append_assoc]; rfl

/-- A connection nobody has written to. -/
def newWriter : Writer := ⟨[], []⟩

theorem sent_bytes (sends : List (Frame × Bool)) (hl : ∀ p ∈ sends, Legal p.1 ∧ p.1.size < 2 ^ 24) :
    ∃ w, runOps newWriter (sends.flatMap (fun p => sendOps p.1 p.2) ++ [.flush]) = .ok w ∧
      w.pending = [] ∧ w.sent = stream (sends.map (fun p => image p.1)) := by
  obtain ⟨w, h1, h2⟩ := runOps_sends sends [.flush] hl newWriter
  refine ⟨w.flush, ?_, rfl, ?_⟩
  · rw [h1]; rfl
  · show w.sent ++ w.pending = _
    rw [show w.sent ++ w.pending = total w from rfl, h2]; rfl

theorem nil_not_ready : ¬ Ready [] := fun h => absurd h.1 (by decide)

/-! ## C36 -/

/-- **C36** Whatever frames are sent, with or without flushing after each, and however the connection
cuts the bytes into reads, the receiving side reads exactly those frames (as decoding defines them,
see C02) in the same order and then sees the end of the connection. -/
theorem framing_roundtrip (sends : List (Frame × Bool))
    (hl : ∀ p ∈ sends, Legal p.1 ∧ p.1.size < 2 ^ 24) :
    ∃ w, runOps newWriter (sends.flatMap (fun p => sendOps p.1 p.2) ++ [.flush]) = .ok w ∧
      w.pending = [] ∧
      ∀ (evs : List Ev) (final : IoErr) (n : Nat), (∀ e ∈ evs, e.stalls ≤ 100) → sends.length < n →
        (recvAll n (newDecoder ⟨w.sent, evs, false, final⟩)).1.map Prod.fst =
          sends.map (fun p => received p.1) ∧
        (recvAll n (newDecoder ⟨w.sent, evs, false, final⟩)).2.1 = endOf final := by
  obtain ⟨w, h1, h2, h3⟩ := sent_bytes sends hl
  refine ⟨w, h1, h2, fun evs final n hev hn => ?_⟩
  obtain ⟨⟨k, r1, r2⟩, r3⟩ := recv_stream (sends.map Prod.fst)
    (by intro f hf; obtain ⟨p, hp, rfl⟩ := List.mem_map.mp hf; exact hl p hp) [] nil_not_ready n
    (by simpa using hn) (newDecoder ⟨w.sent, evs, false, final⟩) (newDecoder_wf _ hev) rfl
    (by rw [newDecoder_rest, h3, List.append_nil, List.map_map]; rfl)
  refine ⟨?_, r3⟩
  rw [r1, List.take_of_length_le (r2 rfl), List.map_map]; rfl

example : ∃ fs : List (Frame × Bool), fs.length = 2 ∧ ∀ p ∈ fs, Legal p.1 ∧ p.1.size < 2 ^ 24 :=
  ⟨[(.request ⟨tRequestResponse, 1, [1, 2], [3], false, true, 1⟩, false),
    (.payload ⟨1, [], [4, 5], false, true, true⟩, true)], rfl, by decide⟩

/-- **C36** For arbitrary bytes, well formed or not, what is received does not depend on how the
connection cuts them into reads. -/
theorem chunking_irrelevant (bytes : Bytes) (final : IoErr) (evs evs' : List Ev)
    (h : ∀ e ∈ evs, e.stalls ≤ 100) (h' : ∀ e ∈ evs', e.stalls ≤ 100) (n : Nat) :
    (recvAll n (newDecoder ⟨bytes, evs, false, final⟩)).1.map Prod.fst =
      (recvAll n (newDecoder ⟨bytes, evs', false, final⟩)).1.map Prod.fst ∧
    (recvAll n (newDecoder ⟨bytes, evs, false, final⟩)).2.1 =
      (recvAll n (newDecoder ⟨bytes, evs', false, final⟩)).2.1 := by
  have key : ∀ (n : Nat) (s t : Scanner), WF s → WF t → s.err = none → t.err = none →
      rest s = rest t → s.rd.together = false → t.rd.together = false → s.rd.final = t.rd.final →
      (recvAll n s).1.map Prod.fst = (recvAll n t).1.map Prod.fst ∧
        (recvAll n s).2.1 = (recvAll n t).2.1 := by
    intro n
    induction n with
    | zero => intros; exact ⟨rfl, rfl⟩
    | succ n ih =>
      intro s t ws wt hs ht hr hst htt hfin
      have os := scan_spec s ws hs
      have ot := scan_spec t wt ht
      rw [hr] at os
      generalize ho : scan s = o at os
      generalize hq : scan t = q at ot
      cases os with
      | token s' v h3 hp hc hd hl hr' wf' he' ht' hf' hg ho' =>
        cases ot with
        | token t' u g3 gp gc gd gl gr gwf ge gt gf gg go =>
          have es : ∀ x : Scanner, x.deref ⟨v.gen, v.off + 3, v.len - 3⟩ = (x.deref v).drop 3 :=
            fun x => deref_drop _ _ _ _ _
          have et : ∀ x : Scanner, x.deref ⟨u.gen, u.off + 3, u.len - 3⟩ = (x.deref u).drop 3 :=
            fun x => deref_drop _ _ _ _ _
          have hlu : v.len = u.len := hl.trans gl.symm
          have ihs := ih s' t' wf' gwf he' ge (hr'.trans gr.symm) (ht'.trans hst) (gt.trans htt)
            (hf'.trans (hfin.trans gf.symm))
          simp only [recvAll, readFrame, readRaw, ho, hq]
          have hnl : ¬ u.len < lengthFieldSize := by unfold lengthFieldSize; omega
          rw [hlu, if_neg hnl, if_neg hnl]
          by_cases h9 : u.len - lengthFieldSize < headerLen
          · rw [if_pos h9, if_pos h9]; exact ⟨rfl, rfl⟩
          · rw [if_neg h9, if_neg h9]
            have e1 : s'.deref ⟨v.gen, v.off + lengthFieldSize, u.len - lengthFieldSize⟩ =
                (List.take (ann (rest t) + 3) (rest t)).drop 3 := by
              rw [← hlu, ← hd]; exact es s'
            have e2 : t'.deref ⟨u.gen, u.off + lengthFieldSize, u.len - lengthFieldSize⟩ =
                (List.take (ann (rest t) + 3) (rest t)).drop 3 := by
              rw [← gd]; exact et t'
            simp only [e1, e2]
            cases decodeFrame ((List.take (ann (rest t) + 3) (rest t)).drop 3) with
            | ok f => simp only [List.map_cons, ihs, and_self]
            | err m => exact ⟨rfl, rfl⟩
            | panic => exact ⟨rfl, rfl⟩
        | zero t' g3 gz ge => omega
        | ended t' ge gn =>
          rcases gn with gn | gn
          · rw [htt] at gn; cases gn
          · exact absurd ⟨h3, Or.inr hc⟩ gn
      | zero s' h3 hz he =>
        cases ot with
        | token t' u g3 gp gc => omega
        | zero t' g3 gz ge => simp only [recvAll, readFrame, readRaw, ho, hq, he, ge, scanFailure, List.map_nil, and_self]
        | ended t' ge gn =>
          rcases gn with gn | gn
          · rw [htt] at gn; cases gn
          · exact absurd ⟨h3, Or.inl hz⟩ gn
      | ended s' he hn =>
        have hnr : ¬ Ready (rest t) := by
          rcases hn with hn | hn
          · rw [hst] at hn; cases hn
          · exact hn
        cases ot with
        | token t' u g3 gp gc => exact absurd ⟨g3, Or.inr gc⟩ hnr
        | zero t' g3 gz ge => exact absurd ⟨g3, Or.inl gz⟩ hnr
        | ended t' ge gn =>
          simp only [recvAll, readFrame, readRaw, ho, hq, he, ge, hfin]
          cases t.rd.final <;> exact ⟨rfl, rfl⟩
  exact key n _ _ (newDecoder_wf _ h) (newDecoder_wf _ h') rfl rfl
    (by rw [newDecoder_rest, newDecoder_rest]) rfl rfl rfl

example : (∀ e ∈ [(⟨0, 0⟩ : Ev), ⟨3, 1⟩, ⟨0, 5⟩], e.stalls ≤ 100) ∧ [(⟨0, 0⟩ : Ev), ⟨3, 1⟩, ⟨0, 5⟩] ≠ [] := by
  decide

/-! ## C37 -/

/-- **C37** Complete frames followed by any unfinished one: every complete frame is delivered, the
unfinished one is not, provided the connection reports its end by a call of its own (as TCP
connections do). Missing for the full statement: see `eof_with_data_refuted`. -/
theorem complete_frames_delivered_partial (fs : List Frame) (hl : ∀ f ∈ fs, Legal f ∧ f.size < 2 ^ 24)
    (t : Bytes) (ht : Unfinished t) (evs : List Ev) (hev : ∀ e ∈ evs, e.stalls ≤ 100) (final : IoErr)
    (n : Nat) (hn : fs.length < n) :
    (recvAll n (newDecoder ⟨stream (fs.map image) ++ t, evs, false, final⟩)).1.map Prod.fst =
      fs.map received ∧
    (recvAll n (newDecoder ⟨stream (fs.map image) ++ t, evs, false, final⟩)).2.1 = endOf final := by
  obtain ⟨⟨k, r1, r2⟩, r3⟩ := recv_stream fs hl t (unfinished_not_ready ht) n hn
    (newDecoder ⟨stream (fs.map image) ++ t, evs, false, final⟩) (newDecoder_wf _ hev) rfl
    (newDecoder_rest _)
  exact ⟨by rw [r1, List.take_of_length_le (r2 rfl)], r3⟩

example : Unfinished [0, 0, 9, 1, 2] :=
  ⟨[1, 2, 3, 4, 5, 6, 7, 8, 9], [3, 4, 5, 6, 7, 8, 9], by unfold Sendable; decide, by decide, by decide⟩

/-- **C37** However the end is reported, only frames that were sent are delivered: the first so many of
them, in order, and never an unfinished one. -/
theorem delivered_is_prefix (fs : List Frame) (hl : ∀ f ∈ fs, Legal f ∧ f.size < 2 ^ 24) (t : Bytes)
    (ht : Unfinished t) (evs : List Ev) (hev : ∀ e ∈ evs, e.stalls ≤ 100) (together : Bool)
    (final : IoErr) (n : Nat) (hn : fs.length < n) :
    (recvAll n (newDecoder ⟨stream (fs.map image) ++ t, evs, together, final⟩)).1.map Prod.fst <+:
      fs.map received ∧
    (recvAll n (newDecoder ⟨stream (fs.map image) ++ t, evs, together, final⟩)).2.1 = endOf final := by
  obtain ⟨⟨k, r1, _⟩, r3⟩ := recv_stream fs hl t (unfinished_not_ready ht) n hn
    (newDecoder ⟨stream (fs.map image) ++ t, evs, together, final⟩) (newDecoder_wf _ hev) rfl
    (newDecoder_rest _)
  refine ⟨?_, r3⟩
  rw [r1, List.map_take]
  exact List.take_prefix _ _

/-- A connection that reports its end along with the last bytes. -/
theorem read_all_at_once (bytes : Bytes) (h : bytes.length ≤ minBuffSize) (n : Nat) :
    (recvAll (n + 1) (newDecoder ⟨bytes, [], true, .eof⟩)).1 = [] ∧
    (recvAll (n + 1) (newDecoder ⟨bytes, [], true, .eof⟩)).2.1 = .eof := by
  have hbl : (newDecoder ⟨bytes, [], true, .eof⟩).buf.length = minBuffSize := by
    unfold newDecoder; rw [List.length_replicate]
  have hsc : ∃ s', scan (newDecoder ⟨bytes, [], true, .eof⟩) = some (.ok (none, s')) ∧
      s'.err = some (.io .eof) := by
    generalize hs : newDecoder ⟨bytes, [], true, .eof⟩ = s at hbl
    have e1 : s.start = 0 := by rw [← hs]; rfl
    have e2 : s.stop = 0 := by rw [← hs]; rfl
    have e3 : s.err = none := by rw [← hs]; rfl
    have e4 : s.rd = ⟨bytes, [], true, .eof⟩ := by rw [← hs]; rfl
    have ht : trySplit s = .more s := by
      unfold trySplit; rw [if_neg (by rw [e1, e2, e3]; simp)]
    have hsh : shift s = s := by unfold shift; rw [if_neg (by rw [e1]; simp)]
    have hg : grow s = some s := by
      unfold grow
      rw [if_neg (by rw [e2, hbl]; decide)]
    have hr : (readMore s).err = some (.io .eof) := by
      unfold readMore
      rw [e4]
      have hsp : s.buf.length - s.stop = minBuffSize := by rw [hbl, e2]; rfl
      rw [hsp, if_neg (by simp [Reader.nextStalls])]
      simp only [Reader.read, Reader.nextSize]
      by_cases hb : bytes = []
      · rw [if_pos hb]; rfl
      · rw [if_neg hb, if_pos ⟨trivial, List.drop_of_length_le h⟩]; rfl
    refine ⟨{ readMore s with start := 0, stop := 0 }, ?_, hr⟩
    rw [scan, e4]
    simp only [scanLoop, ht, e3, Option.isSome_none, Bool.false_eq_true, if_false, hsh, hg]
    exact scanLoop_err hr _
  obtain ⟨s', h1, h2⟩ := hsc
  simp only [recvAll, readFrame, readRaw, h1, h2, scanFailure]
  exact ⟨trivial, trivial⟩

/-- **C37** refuted: a peer sends a complete frame and closes; when the connection reports the end
together with the last bytes (a TLS connection does), the frame is silently lost. -/
theorem eof_with_data_refuted :
    ∃ (f : Frame) (evs : List Ev), Legal f ∧ f.size < 2 ^ 24 ∧ ∀ n,
      (recvAll (n + 1) (newDecoder ⟨stream [image f], evs, true, .eof⟩)).1 = [] ∧
      (recvAll (n + 1) (newDecoder ⟨stream [image f], evs, true, .eof⟩)).2.1 = .eof :=
  ⟨.cancel ⟨1⟩, [], by decide, by decide, fun n => read_all_at_once _ (by decide) n⟩

/-! ## C38 -/

/-- The frames written whole by a trace in which every length field is directly followed by the body
that belongs to it; `none` if some other operation comes between. -/
def serial : Trace → Option (List (Nat × Frame))
  | [] => some []
  | (_, .flush) :: r => serial r
  | (g, .len f) :: (g', .body f') :: r =>
    if g = g' ∧ f = f' then (serial r).map ((g, f) :: ·) else none
  | _ => none

/-- A trace in which each goroutine `g` sends the frames `prog g`, in order. -/
def Sends (prog : Nat → List Frame) (t : Trace) : Prop :=
  ∀ g, opsOf g t = (prog g).flatMap (fun f => sendOps f true)

theorem opsOf_cons (g : Nat) (p : Nat × Op) (t : Trace) :
    opsOf g (p :: t) = if p.1 = g then p.2 :: opsOf g t else opsOf g t := by
  unfold opsOf
  by_cases h : p.1 = g <;> simp [h]

/-- The frames among a goroutine's operations. -/
def framesOf : List Op → List Frame
  | [] => []
  | .body f :: r => f :: framesOf r
  | _ :: r => framesOf r

theorem framesOf_sends (fs : List Frame) : framesOf (fs.flatMap (fun f => sendOps f true)) = fs := by
  induction fs with
  | nil => rfl
  | cons f fs ih =>
    rw [List.flatMap_cons]
    simp only [sendOps, if_true, List.cons_append, List.nil_append, framesOf]
    exact congrArg _ ih

theorem serial_order (t : Trace) : ∀ (o : List (Nat × Frame)), serial t = some o →
    ∀ g, framesOf (opsOf g t) = (o.filter (fun p => p.1 == g)).map Prod.snd := by
  fun_induction serial t with
  | case1 => intro o h; cases h; exact fun g => rfl
  | case2 g r ih =>
    intro o h g'
    rw [opsOf_cons, ← ih o h g']
    by_cases hg : g = g'
    · rw [if_pos hg]; rfl
    · rw [if_neg hg]
  | case3 g f g' f' r hc ih =>
    obtain ⟨rfl, rfl⟩ := hc
    intro o h g'
    cases hs : serial r with
    | none => rw [hs] at h; cases h
    | some o' =>
      rw [hs] at h
      cases h
      have h1 := ih o' hs
      rw [opsOf_cons, opsOf_cons]
      by_cases hg : g = g'
      · subst hg
        rw [if_pos rfl, if_pos rfl]
        simp [framesOf, h1 g]
      · rw [if_neg hg, if_neg hg, h1 g']
        simp [hg]
  | case4 => intro o h; cases h
  | case5 => intro o h; cases h

theorem serial_bytes (t : Trace) : ∀ (o : List (Nat × Frame)), serial t = some o →
    (∀ p ∈ o, Legal p.2 ∧ p.2.size < 2 ^ 24) →
    ∀ w, ∃ w', runTrace w t = .ok w' ∧ total w' = total w ++ stream (o.map (fun p => image p.2)) := by
  fun_induction serial t with
  | case1 => intro o h _ w; cases h; exact ⟨w, rfl, by simp [stream]⟩
  | case2 g r ih =>
    intro o h hl w
    obtain ⟨w', e1, e2⟩ := ih o h hl w.flush
    exact ⟨w', e1, by rw [e2, total_flush]⟩
  | case3 g f g' f' r hc ih =>
    obtain ⟨rfl, rfl⟩ := hc
    intro o h hl w
    cases hs : serial r with
    | none => rw [hs] at h; cases h
    | some o' =>
      rw [hs] at h
      cases h
      obtain ⟨hf, hsz⟩ := hl (g, f) (by simp)
      obtain ⟨w', e1, e2⟩ := ih o' hs (fun p hp => hl p (by simp [hp]))
        ((w.write (beBytes 3 (image f).length)).write (image f))
      refine ⟨w', ?_, ?_⟩
      · rw [← e1]
        simp only [runTrace, List.map_cons, runOps, Op.run, lengthField_eq hf hsz, frameBytes_eq hf,
          Res.ok_bind, Res.pure_eq]
      · rw [e2, total_write, total_write]
        simp [stream, packet, List.append_assoc]
  | case4 => intro o h; cases h
  | case5 => intro o h; cases h

/-- **C38** As long as no goroutine's operation falls between the two writes of another one's send, the
receiver gets every frame intact, each goroutine's frames in the order it sent them, for any number of
goroutines and any such interleaving. Nothing in the code ensures that condition: see
`concurrent_sends_refuted`. -/
theorem serialised_sends_partial (prog : Nat → List Frame) (t : Trace) (hp : Sends prog t)
    (hl : ∀ g, ∀ f ∈ prog g, Legal f ∧ f.size < 2 ^ 24) (o : List (Nat × Frame))
    (hs : serial t = some o) :
    (∀ g, (o.filter (fun p => p.1 == g)).map Prod.snd = prog g) ∧
    ∃ w, runTrace newWriter (t ++ [(0, .flush)]) = .ok w ∧ w.pending = [] ∧
      ∀ (evs : List Ev) (n : Nat), (∀ e ∈ evs, e.stalls ≤ 100) → o.length < n →
        (recvAll n (newDecoder ⟨w.sent, evs, false, .eof⟩)).1.map Prod.fst =
          o.map (fun p => received p.2) ∧
        (recvAll n (newDecoder ⟨w.sent, evs, false, .eof⟩)).2.1 = .eof := by
  have h1 : ∀ g, (o.filter (fun p => p.1 == g)).map Prod.snd = prog g := fun g => by
    rw [← serial_order t o hs g, hp g, framesOf_sends]
  have hlo : ∀ p ∈ o, Legal p.2 ∧ p.2.size < 2 ^ 24 := fun p hpo => hl p.1 p.2 (by
    rw [← h1 p.1]
    exact List.mem_map.mpr ⟨p, List.mem_filter.mpr ⟨hpo, by simp⟩, rfl⟩)
  have h2 := serial_bytes t o hs hlo
  refine ⟨h1, ?_⟩
  · obtain ⟨w, e1, e2⟩ := h2 newWriter
    have happ : ∀ (a b : List Op) (w w' : Writer), runOps w a = .ok w' → runOps w (a ++ b) = runOps w' b := by
      intro a
      induction a with
      | nil => intro b w w' h; cases h; rfl
      | cons x a ih =>
        intro b w w' h
        rw [runOps] at h
        rw [List.cons_append, runOps]
        cases hx : x.run w with
        | ok y => rw [hx] at h; exact ih b y w' h
        | err m => rw [hx] at h; cases h
        | panic => rw [hx] at h; cases h
    refine ⟨w.flush, ?_, rfl, fun evs n hev hn => ?_⟩
    · rw [runTrace, List.map_append, happ _ _ _ _ e1]; rfl
    · have hsent : w.flush.sent = stream (o.map (fun p => image p.2)) := by
        show total w = _; rw [e2]; rfl
      rw [hsent]
      obtain ⟨⟨k, r1, r2⟩, r3⟩ := recv_stream (o.map Prod.snd)
        (by intro f hf; obtain ⟨p, hp', rfl⟩ := List.mem_map.mp hf; exact hlo p hp') [] nil_not_ready n
        (by simpa using hn) (newDecoder ⟨stream (o.map (fun p => image p.2)), evs, false, .eof⟩)
        (newDecoder_wf _ hev) rfl
        (by rw [newDecoder_rest, List.append_nil, List.map_map]; rfl)
      refine ⟨?_, r3⟩
      rw [r1, List.take_of_length_le (r2 rfl), List.map_map]; rfl

example : ∃ o, serial [(7, .len (.cancel ⟨1⟩)), (7, .body (.cancel ⟨1⟩)), (2, .len (.requestN ⟨5, 3⟩)),
    (2, .body (.requestN ⟨5, 3⟩)), (7, .flush), (2, .flush)] = some o ∧ o.length = 2 := ⟨_, rfl, rfl⟩

/-- **C38** refuted: two goroutines each send one frame; the second one's length field is written
between the first one's length field and body. However the bytes are cut into reads, the receiver gets
no frame at all and gives up with an error. -/
theorem concurrent_sends_refuted :
    ∃ (prog : Nat → List Frame) (t : Trace) (w : Writer), Sends prog t ∧
      (∀ g, ∀ f ∈ prog g, Legal f ∧ f.size < 2 ^ 24) ∧ prog 0 ≠ [] ∧ prog 1 ≠ [] ∧
      runTrace newWriter t = .ok w ∧ w.pending = [] ∧
      ∀ (evs : List Ev) (n : Nat), (∀ e ∈ evs, e.stalls ≤ 100) →
        (recvAll (n + 1) (newDecoder ⟨w.sent, evs, false, .eof⟩)).1 = [] ∧
        (recvAll (n + 1) (newDecoder ⟨w.sent, evs, false, .eof⟩)).2.1 = .error "unknown frame" := by
  refine ⟨fun g => if g = 0 then [.cancel ⟨1⟩] else if g = 1 then [.cancel ⟨3⟩] else [],
    [(0, .len (.cancel ⟨1⟩)), (1, .len (.cancel ⟨3⟩)), (0, .body (.cancel ⟨1⟩)),
      (1, .body (.cancel ⟨3⟩)), (0, .flush), (1, .flush)],
    ⟨[], [0, 0, 6, 0, 0, 6, 0, 0, 0, 1, 0x24, 0, 0, 0, 0, 3, 0x24, 0]⟩, ?_, ?_, by decide, by decide,
    by decide, rfl, ?_⟩
  · intro g
    by_cases h0 : g = 0
    · subst h0; rfl
    · by_cases h1 : g = 1
      · subst h1; rfl
      · have h0' : ¬ (0 = g) := fun h => h0 h.symm
        have h1' : ¬ (1 = g) := fun h => h1 h.symm
        simp [opsOf, h0, h1, h0', h1']
  · intro g f hf
    by_cases h0 : g = 0
    · subst h0; simp at hf; subst hf; decide
    · by_cases h1 : g = 1
      · subst h1; simp at hf; subst hf; decide
      · simp [h0, h1] at hf
  · intro evs n hev
    rcases readRaw_packet (newDecoder_wf ⟨_, evs, false, .eof⟩ hev) rfl
      (m := [0, 0, 6, 0, 0, 0]) (r := [1, 0x24, 0, 0, 0, 0, 3, 0x24, 0])
      (newDecoder_rest _) (by unfold Sendable; decide) (by decide)
      with ⟨v, s', hrr, hd, _⟩ | ⟨h, _⟩
    · have hrf : readFrame (newDecoder ⟨[0, 0, 6, 0, 0, 6, 0, 0, 0, 1, 0x24, 0, 0, 0, 0, 3, 0x24, 0],
          evs, false, .eof⟩) = (.err (.other "unknown frame"), s') := by
        have hdec : decodeFrame [0, 0, 6, 0, 0, 0] = .err "unknown frame" := by decide
        have hrr' : readRaw (newDecoder ⟨[0, 0, 6, 0, 0, 6, 0, 0, 0, 1, 0x24, 0, 0, 0, 0, 3, 0x24, 0],
          evs, false, .eof⟩) = (.ok v, s') := hrr
        simp only [readFrame, hrr', hd, hdec]
      simp only [recvAll, hrf, and_self]
    · cases h

/-! ## C59 -/

theorem decodeBody_suffix {m : Bool} {p md data : Bytes} (h : decodeBody m p = .ok (md, data)) :
    ∃ pre, p = pre ++ md ++ data := by
  unfold decodeBody at h
  cases m with
  | false => cases h; exact ⟨[], rfl⟩
  | true =>
    simp only [if_true, sliceTo, sliceFrom] at h
    by_cases h3 : 3 ≤ p.length
    · simp only [h3, if_true, Res.ok_bind] at h
      generalize beNat (0 :: p.take 3) = k at h
      by_cases hk : k ≤ (p.drop 3).length
      · simp only [hk, if_true, Res.ok_bind] at h
        cases h
        refine ⟨p.take 3, ?_⟩
        rw [List.append_assoc, List.take_append_drop, List.take_append_drop]
      · rw [if_neg hk] at h; cases h
    · rw [if_neg h3] at h; cases h

theorem seen_slices (pre md data : Bytes) :
    (pre ++ md ++ data).drop ((pre ++ md ++ data).length - data.length) = data ∧
    ((pre ++ md ++ data).drop ((pre ++ md ++ data).length - data.length - md.length)).take md.length = md := by
  constructor
  · have : (pre ++ md ++ data).length - data.length = (pre ++ md).length := by simp; omega
    rw [this, List.drop_left' rfl]
  · have : (pre ++ md ++ data).length - data.length - md.length = pre.length := by simp; omega
    rw [this, List.append_assoc, List.drop_left' rfl, List.take_left' rfl]

/-- As long as the bytes are unchanged the frame is. -/
theorem seen_same {raw : Bytes} {f : Frame} (h : decodeFrame raw = .ok f) : seen f raw = f := by
  have hdrop : ∀ {n : Nat} {b c : Bytes}, sliceFrom b n = .ok c → ∃ pre, b = pre ++ c := by
    intro n b c h
    unfold sliceFrom at h
    split at h
    · cases h; exact ⟨b.take n, (List.take_append_drop n b).symm⟩
    · cases h
  unfold decodeFrame at h
  cases hp : parseHeader raw with
  | err m => rw [hp] at h; cases h
  | panic => rw [hp] at h; cases h
  | ok hd =>
    rw [hp] at h
    simp only [Res.ok_bind] at h
    cases hs : sliceFrom raw headerLen with
    | err m => rw [hs] at h; cases h
    | panic => rw [hs] at h; cases h
    | ok b =>
      rw [hs] at h
      simp only [Res.ok_bind] at h
      obtain ⟨pre, hpre⟩ := hdrop hs
      split at h
      · cases hr : RequestPayload.decode hd b with
        | err m => rw [hr] at h; cases h
        | panic => rw [hr] at h; cases h
        | ok r =>
          rw [hr] at h
          cases h
          unfold RequestPayload.decode at hr
          simp only at hr
          cases hi : decodeInitialN (Header.type hd) b with
          | err m => rw [hi] at hr; cases hr
          | panic => rw [hi] at hr; cases hr
          | ok q =>
            obtain ⟨n, b'⟩ := q
            rw [hi] at hr
            simp only [Res.ok_bind] at hr
            have hb' : ∃ pre', b = pre' ++ b' := by
              unfold decodeInitialN at hi
              split at hi
              · cases hg : getU32 b with
                | err m => rw [hg] at hi; cases hi
                | panic => rw [hg] at hi; cases hi
                | ok x =>
                  rw [hg] at hi
                  simp only [Res.ok_bind] at hi
                  cases h4 : sliceFrom b 4 with
                  | err m => rw [h4] at hi; cases hi
                  | panic => rw [h4] at hi; cases hi
                  | ok y => rw [h4] at hi; cases hi; exact hdrop h4
              · cases hi; exact ⟨[], rfl⟩
            obtain ⟨pre', hb'⟩ := hb'
            cases hbd : decodeBody (FrameFlag.check (Header.flag hd) flagMetadata) b' with
            | err m => rw [hbd] at hr; cases hr
            | panic => rw [hbd] at hr; cases hr
            | ok q =>
              obtain ⟨md, data⟩ := q
              rw [hbd] at hr
              cases hr
              obtain ⟨pre'', h''⟩ := decodeBody_suffix hbd
              have hraw : raw = (pre ++ pre' ++ pre'') ++ md ++ data := by
                rw [hpre, hb', h'']; simp [List.append_assoc]
              obtain ⟨e1, e2⟩ := seen_slices (pre ++ pre' ++ pre'') md data
              rw [← hraw] at e1 e2
              simp only [seen, e1, e2]
      · split at h
        · cases hr : RequestN.decode hd b with
          | err m => rw [hr] at h; cases h
          | panic => rw [hr] at h; cases h
          | ok r => rw [hr] at h; cases h; rfl
        · split at h
          · cases hr : Cancel.decode hd b with
            | err m => rw [hr] at h; cases h
            | panic => rw [hr] at h; cases h
            | ok r => rw [hr] at h; cases h; rfl
          · split at h
            · cases hr : Payload.decode hd b with
              | err m => rw [hr] at h; cases h
              | panic => rw [hr] at h; cases h
              | ok r =>
                rw [hr] at h
                cases h
                unfold Payload.decode at hr
                simp only at hr
                cases hbd : decodeBody (FrameFlag.check (Header.flag hd) flagMetadata) b with
                | err m => rw [hbd] at hr; cases hr
                | panic => rw [hbd] at hr; cases hr
                | ok q =>
                  obtain ⟨md, data⟩ := q
                  rw [hbd] at hr
                  cases hr
                  obtain ⟨pre'', h''⟩ := decodeBody_suffix hbd
                  have hraw : raw = (pre ++ pre'') ++ md ++ data := by
                    rw [hpre, h'']; simp [List.append_assoc]
                  obtain ⟨e1, e2⟩ := seen_slices (pre ++ pre'') md data
                  rw [← hraw] at e1 e2
                  simp only [seen, e1, e2]
            · split at h
              · cases hr : Error.decode hd b with
                | err m => rw [hr] at h; cases h
                | panic => rw [hr] at h; cases h
                | ok r => rw [hr] at h; cases h; rfl
              · cases h

/-- Little enough data that the buffer is never moved. -/
structure Small (s : Scanner) : Prop where
  len : s.buf.length = 8192
  le : s.start ≤ s.stop
  few : s.stop + s.rd.rem.length ≤ 4096

/-- The first `n` bytes of the buffer stay as they are. -/
def Keeps (n : Nat) (s s' : Scanner) : Prop := s'.old = s.old ∧ s'.buf.take n = s.buf.take n

theorem Keeps.trans {n : Nat} {a b c : Scanner} (h : Keeps n a b) (g : Keeps n b c) : Keeps n a c :=
  ⟨g.1.trans h.1, g.2.trans h.2⟩

theorem Keeps.deref {n : Nat} {s s' : Scanner} (h : Keeps n s s') {v : View}
    (hv : v.off + v.len ≤ n) (hg : v.gen = s.old.length) : s'.deref v = s.deref v := by
  have key : ∀ b : Bytes, (b.drop v.off).take v.len = ((b.take n).drop v.off).take v.len := by
    intro b
    rw [List.drop_take, List.take_take, Nat.min_eq_left (by omega)]
  unfold Scanner.deref
  rw [h.1, hg]
  simp only [List.getElem?_eq_none (Nat.le_refl _), Option.getD_none]
  rw [key, h.2, ← key]

theorem doSplit_token {d : Bytes} {e : Bool} {adv n : Nat} (h : doSplit d e = .ok (adv, some n)) :
    adv = n ∧ n ≤ d.length := by
  unfold doSplit at h
  split at h
  · cases h
  · split at h
    · cases h
    · rename_i h3
      rw [read24 _ (by unfold lengthFieldSize at h3; omega)] at h
      simp only [Res.ok_bind] at h
      split at h
      · cases h
      · split at h
        · cases h; exact ⟨rfl, by assumption⟩
        · cases h

theorem doSplit_none {d : Bytes} {e : Bool} {adv : Nat} (h : doSplit d e = .ok (adv, none)) :
    adv = 0 := by
  unfold doSplit at h
  split at h
  · cases h; rfl
  · split at h
    · cases h; rfl
    · rename_i h3
      rw [read24 _ (by unfold lengthFieldSize at h3; omega)] at h
      simp only [Res.ok_bind] at h
      split at h
      · cases h
      · split at h
        · cases h
        · cases h; rfl

theorem trySplit_small {s : Scanner} (h : Small s) (n : Nat) :
    (∀ v s', trySplit s = .token v s' → Small s' ∧ s'.stop = s.stop ∧ Keeps n s s' ∧
      v.gen = s.old.length ∧ v.off + v.len ≤ s.stop) ∧
    (∀ s', trySplit s = .fail s' → Small s' ∧ Keeps n s s') ∧
    (∀ s', trySplit s = .more s' → s' = s) := by
  have hle := h.le
  have hlen : s.window.length ≤ s.stop - s.start := by
    simp only [Scanner.window, List.length_take]; omega
  unfold trySplit
  split
  · cases hd : doSplit s.window s.err.isSome with
    | panic => simp
    | err m =>
      simp only [Try.fail.injEq, reduceCtorEq, false_implies, implies_true, true_and, and_true]
      rintro s' rfl
      exact ⟨⟨h.len, h.le, h.few⟩, rfl, rfl⟩
    | ok q =>
      obtain ⟨adv, tok⟩ := q
      cases tok with
      | none =>
        have := doSplit_none hd
        subst this
        simp
      | some k =>
        obtain ⟨rfl, hk⟩ := doSplit_token hd
        simp only [show ¬ adv > s.stop - s.start by omega, if_false]
        simp only [Try.token.injEq, reduceCtorEq, false_implies, implies_true, and_true]
        rintro v s' ⟨rfl, rfl⟩
        exact ⟨⟨h.len, by simp only; omega, h.few⟩, rfl, ⟨rfl, rfl⟩, rfl, by simp only; omega⟩
  · simp

theorem shift_small {s : Scanner} (h : Small s) : shift s = s := by
  have := h.few
  have := h.le
  have := h.len
  unfold shift
  rw [if_neg (by omega)]

theorem grow_small {s : Scanner} (h : Small s) : grow s = some s := by
  have := h.few
  have := h.len
  unfold grow
  rw [if_neg (by omega)]

theorem readMore_small {s : Scanner} (h : Small s) {n : Nat} (hn : n ≤ s.stop) :
    Small (readMore s) ∧ Keeps n s (readMore s) ∧ s.stop ≤ (readMore s).stop := by
  have h1 := h.few
  have h2 := h.len
  have h3 := h.le
  unfold readMore
  split
  · exact ⟨⟨h.len, h.le, h.few⟩, ⟨rfl, rfl⟩, Nat.le_refl _⟩
  · have hc : (s.rd.read (s.buf.length - s.stop)).1.length +
        (s.rd.after (s.buf.length - s.stop)).rem.length ≤ s.rd.rem.length := by
      unfold Reader.read Reader.after
      split
      · simp
      · simp only [List.length_take, List.length_drop]; omega
    generalize (s.rd.read (s.buf.length - s.stop)).1 = c at hc ⊢
    refine ⟨⟨?_, ?_, ?_⟩, ⟨rfl, ?_⟩, ?_⟩
    · simp only [List.length_append, List.length_take, List.length_drop]; omega
    · simp only; omega
    · simp only; omega
    · rw [List.append_assoc, List.take_append_of_le_length (by simp; omega), List.take_take,
        Nat.min_eq_left hn]
    · simp only; omega

theorem scanLoop_small (fuel : Nat) : ∀ (s : Scanner), Small s → ∀ n, n ≤ s.stop →
    ∀ v s', scanLoop fuel s = some (.ok (v, s')) → Small s' ∧ Keeps n s s' ∧
      ∀ u, v = some u → s.stop ≤ s'.stop ∧ u.gen = s'.old.length ∧ u.off + u.len ≤ s'.stop := by
  induction fuel with
  | zero => intro s _ n _ v s' h; cases h
  | succ fuel ih =>
    intro s hs n hn v s' h
    obtain ⟨t1, t2, t3⟩ := trySplit_small hs n
    rw [scanLoop] at h
    cases ht : trySplit s with
    | panic => rw [ht] at h; cases h
    | token u q =>
      rw [ht] at h
      cases h
      obtain ⟨a, b, c, d, e⟩ := t1 _ _ ht
      refine ⟨a, c, ?_⟩
      rintro u' ⟨⟩
      exact ⟨by omega, by rw [d, c.1], by omega⟩
    | fail q =>
      rw [ht] at h
      cases h
      obtain ⟨a, b⟩ := t2 _ ht
      exact ⟨a, b, fun u hu => by cases hu⟩
    | more q =>
      rw [ht] at h
      cases t3 _ ht
      simp only at h
      split at h
      · cases h
        exact ⟨⟨hs.len, Nat.le_refl _, by have := hs.few; simp only; omega⟩, ⟨rfl, rfl⟩,
          fun u hu => by cases hu⟩
      · rw [shift_small hs, grow_small hs] at h
        simp only at h
        obtain ⟨r1, r2, r3⟩ := readMore_small hs hn
        obtain ⟨i1, i2, i3⟩ := ih _ r1 n (by omega) v s' h
        exact ⟨i1, r2.trans i2, fun u hu => ⟨Nat.le_trans r3 (i3 u hu).1, (i3 u hu).2⟩⟩

/-- What was read stays readable. -/
theorem recvAll_small (fuel : Nat) : ∀ (s : Scanner), Small s → ∀ n, n ≤ s.stop →
    Keeps n s (recvAll fuel s).2.2 ∧
    ∀ p ∈ (recvAll fuel s).1, seen p.1 ((recvAll fuel s).2.2.deref p.2) = p.1 := by
  induction fuel with
  | zero => intro s _ n _; exact ⟨⟨rfl, rfl⟩, by simp [recvAll]⟩
  | succ fuel ih =>
    intro s hs n hn
    have key : ∀ v s', scan s = some (.ok (v, s')) → _ := scanLoop_small _ s hs n hn
    unfold recvAll readFrame readRaw
    cases hsc : scan s with
    | none => exact ⟨⟨rfl, rfl⟩, by simp⟩
    | some o =>
      cases o with
      | panic => exact ⟨⟨rfl, rfl⟩, by simp⟩
      | err m => exact ⟨⟨rfl, rfl⟩, by simp⟩
      | ok q =>
        obtain ⟨v, s'⟩ := q
        obtain ⟨k1, k2, k3⟩ := key v s' hsc
        cases v with
        | none =>
          simp only
          cases scanFailure s'.err <;> exact ⟨k2, by simp⟩
        | some v =>
          obtain ⟨g1, g2, g3⟩ := k3 v rfl
          simp only
          by_cases hlt : v.len < lengthFieldSize
          · rw [if_pos hlt]; exact ⟨k2, by simp⟩
          · rw [if_neg hlt]
            by_cases hlt2 : v.len - lengthFieldSize < headerLen
            · rw [if_pos hlt2]; exact ⟨k2, by simp⟩
            · rw [if_neg hlt2]
              simp only
              cases hdec : decodeFrame (s'.deref ⟨v.gen, v.off + lengthFieldSize, v.len - lengthFieldSize⟩) with
              | err m => exact ⟨k2, by simp⟩
              | panic => exact ⟨k2, by simp⟩
              | ok f =>
                obtain ⟨i1, i2⟩ := ih s' k1 s'.stop (Nat.le_refl _)
                obtain ⟨j1, _⟩ := ih s' k1 n (by omega)
                refine ⟨k2.trans j1, ?_⟩
                intro p hp
                rcases List.mem_cons.mp hp with rfl | hp
                · simp only
                  rw [i1.deref (v := ⟨v.gen, v.off + lengthFieldSize, v.len - lengthFieldSize⟩)
                    (by unfold lengthFieldSize at *; simp only; omega) g2]
                  exact seen_same hdec
                · exact i2 p hp

/-- **C59** As long as at most 4096 bytes have been sent, every frame still has the contents it was
read with when the read loop has gone on, whatever the bytes are and however they are cut. Missing:
longer streams, see `late_frame_corrupt_refuted`. -/
theorem frames_stay_intact_partial (rd : Reader) (h : rd.rem.length ≤ 4096) (n : Nat) :
    ∀ p ∈ (recvAll n (newDecoder rd)).1,
      seen p.1 ((recvAll n (newDecoder rd)).2.2.deref p.2) = p.1 :=
  (recvAll_small n (newDecoder rd)
    ⟨by unfold newDecoder; rw [List.length_replicate]; rfl, Nat.le_refl _, by
      have : (newDecoder rd).stop = 0 := rfl
      have : (newDecoder rd).rd = rd := rfl
      simp only [*]; omega⟩ 0 (Nat.zero_le _)).2

example : (⟨stream [image (.payload ⟨1, [1], [2, 3], false, false, true⟩)], [⟨0, 4⟩], false, .eof⟩ :
    Reader).rem.length ≤ 4096 := by decide

/-- The frames of the witness: a small one, one that fills more than half of the buffer, a third one. -/
def lateFrames : List Frame :=
  [.payload ⟨1, [], [1, 2, 3], false, false, true⟩,
   .payload ⟨3, [], List.replicate 4200 0, false, false, true⟩,
   .payload ⟨5, [], [9, 9, 9, 9, 9, 9, 9, 9, 9, 9], false, false, true⟩]

/-- **C59** refuted: three frames are read one after the other; the third arrives in two pieces. By the
time it has been read, the first frame, which may still be waiting in the queue, shows bytes of the
third one as its data. -/
theorem late_frame_corrupt_refuted :
    ∃ (evs : List Ev) (p : Frame × View) (r : List (Frame × View)),
      (∀ f ∈ lateFrames, Legal f ∧ f.size < 2 ^ 24) ∧
      (recvAll 4 (newDecoder ⟨stream (lateFrames.map image), evs, false, .eof⟩)).1 = p :: r ∧
      (p :: r).map Prod.fst = lateFrames ∧
      seen p.1 ((recvAll 4 (newDecoder ⟨stream (lateFrames.map image), evs, false, .eof⟩)).2.2.deref p.2)
        = .payload ⟨1, [], [9, 9, 9], false, false, true⟩ := by
  have hl : ∀ f ∈ lateFrames, Legal f ∧ f.size < 2 ^ 24 := by decide +kernel
  have hr : ∀ f ∈ lateFrames, received f = f := by
    intro f hf
    simp only [lateFrames, List.mem_cons, List.not_mem_nil, or_false] at hf
    rcases hf with rfl | rfl | rfl <;> rfl
  obtain ⟨⟨k, r1, r2⟩, _⟩ := recv_stream lateFrames hl [] nil_not_ready 4 (by decide)
    (newDecoder ⟨stream (lateFrames.map image), [⟨0, 4235⟩], false, .eof⟩)
    (newDecoder_wf _ (by decide)) rfl (by rw [newDecoder_rest, List.append_nil])
  rw [List.take_of_length_le (r2 rfl), List.map_congr_left hr, List.map_id'] at r1
  have hv : ((recvAll 4 (newDecoder ⟨stream (lateFrames.map image), [⟨0, 4235⟩], false, .eof⟩)).1.head?.map
      Prod.snd) = some ⟨0, 3, 9⟩ := by decide +kernel
  have hd : (recvAll 4 (newDecoder ⟨stream (lateFrames.map image), [⟨0, 4235⟩], false, .eof⟩)).2.2.deref
      ⟨0, 3, 9⟩ = [0, 0, 0, 5, 0x28, 0x20, 9, 9, 9] := by decide +kernel
  refine ⟨[⟨0, 4235⟩], ?_⟩
  generalize recvAll 4 (newDecoder ⟨stream (lateFrames.map image), [⟨0, 4235⟩], false, .eof⟩) = res
    at r1 hv hd ⊢
  obtain ⟨l, e, s⟩ := res
  cases l with
  | nil => cases r1
  | cons p r =>
    refine ⟨p, r, hl, rfl, r1, ?_⟩
    have h1 : p.2 = ⟨0, 3, 9⟩ := Option.some.inj hv
    have h2 : p.1 = .payload ⟨1, [], [1, 2, 3], false, false, true⟩ := (List.cons.inj r1).1
    rw [h1, h2]
    simp only at hd ⊢
    rw [hd]; rfl

end Iota.Props.Framing
