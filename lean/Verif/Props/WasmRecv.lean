import Verif.Props.Wasm

/-! # C45, C64: frames from a WebAssembly guest to its host, and frames that are too large -/

namespace Iota.Props.WasmRecv
open Iota.Go Iota.Frames Iota.Wasm Iota.Spec.Framing Iota.Props.Frames Iota.Props.Framing
open Iota.Spec.RSocket Iota.Props.Wasm

/-! ## C45 -/

theorem doSendFrame_fits {f : Frame} {buf : Bytes} (hl : Legal f) (hs : f.size + 3 ≤ buf.length)
    (h24 : f.size < 2 ^ 24) :
    doSendFrame buf f = .ok (packet (image f) ++ buf.drop (f.size + 3), f.size + 3) := by
  obtain ⟨o, r, rfl, ho⟩ := exists_split buf (show 3 ≤ buf.length by omega)
  have e1 : sliceTo (o ++ r) 3 = .ok o := by rw [sliceTo, if_pos (by simp; omega), ← ho, List.take_left]
  have e2 : sliceFrom (o ++ r) 3 = .ok r := by rw [sliceFrom, if_pos (by simp; omega), ← ho, List.drop_left]
  have e3 : ((Cur.start o).copy ((beBytes 4 f.size).drop 1)).buf = beBytes 3 f.size := by
    have := Cur.copy_append [] o [] ((beBytes 4 f.size).drop 1) (by simp [ho])
    rw [List.append_nil] at this
    rw [Cur.start, this, beBytes4_drop, List.append_nil]; rfl
  have e4 := (encode_wire f hl r (by simp at hs; omega)).2
  have e5 : u32len (f.size + 3) = f.size + 3 := by unfold u32len; omega
  have e6 : (o ++ r).drop (f.size + 3) = r.drop f.size := by
    rw [show f.size + 3 = o.length + f.size by omega, ← List.drop_drop, List.drop_left]
  rw [doSendFrame, e1, Res.ok_bind, e2, Res.ok_bind, e4, Res.ok_bind, e3, e5, e6, packet, image_length hl, image]
  simp [List.append_assoc]

theorem hostLoop_nil (n : Nat) : hostLoop (n + 1) [] = ([], true) := rfl

theorem hostLoop_packet (n : Nat) (m r : Bytes) (hm : m.length < 2 ^ 24) :
    hostLoop (n + 1) (packet m ++ r) = ((m ++ r) :: (hostLoop n r).1, (hostLoop n r).2) := by
  have hl : (packet m ++ r).length = m.length + 3 + r.length := by simp [packet_length]
  rw [hostLoop, if_neg (by omega), if_neg (by omega), take3_packet, beNat_len hm, drop3_packet,
    if_neg (by simp), List.drop_left]

/-- **C45**, part of the claim: a frame that the guest places in the host buffer reaches the receiving loop of the
host as it was sent, whatever the buffer and the memory after it (`r`) contain. Missing: several frames in one
buffer, see below; the Go guest (`doSendFrame`) never does this. -/
theorem guest_frame_delivered_partial (f : Frame) (hl : Legal f) (buf r : Bytes) (hs : f.size + 3 ≤ buf.length)
    (h24 : f.size < 2 ^ 24) : ∃ buf' n, doSendFrame buf f = .ok (buf', n) ∧ buf'.length = buf.length ∧
      ∃ raw, hostSend (buf' ++ r) n = ([raw], true) ∧ decodeFrame raw = .ok (received f) := by
  refine ⟨_, _, doSendFrame_fits hl hs h24, ?_, image f, ?_, decode_image hl⟩
  · simp [packet_length, image_length hl]; omega
  · rw [hostSend, List.append_assoc, List.take_left' (by rw [packet_length, image_length hl])]
    have := hostLoop_packet ((packet (image f) ++ (buf.drop (f.size + 3) ++ r)).length) (image f) []
      (by rw [image_length hl]; exact h24)
    rw [List.append_nil, List.append_nil] at this
    rw [this]
    cases hn : (packet (image f) ++ (buf.drop (f.size + 3) ++ r)).length with
    | zero => simp [packet_length] at hn
    | succ n => rfl

example : Legal (.payload ⟨1, [1, 2], [3, 4, 5], false, true, true⟩) ∧
    (Frame.payload ⟨1, [1, 2], [3, 4, 5], false, true, true⟩).size + 3 ≤ (List.replicate 16384 (0 : UInt8)).length :=
  ⟨by decide, by rw [List.length_replicate]; decide⟩

/-- The buffers the guest handed over, call by call. -/
def handedOver (env : Env) (batches : List (List Bytes × Bool)) : List Bytes :=
  (List.range batches.length).flatMap fun i => env.guest (batches.take (i + 1))

theorem handedOver_append (env : Env) (bs : List (List Bytes × Bool)) (b : List Bytes × Bool) :
    handedOver env (bs ++ [b]) = handedOver env bs ++ env.guest (bs ++ [b]) := by
  have h1 : (List.range bs.length).flatMap (fun i => env.guest ((bs ++ [b]).take (i + 1))) = handedOver env bs := by
    unfold handedOver
    rw [List.flatMap_def, List.flatMap_def]
    congr 1
    apply List.map_congr_left
    intro i hi
    have := List.mem_range.mp hi
    rw [List.take_append_of_le_length (by omega)]
  rw [handedOver, List.length_append, List.length_singleton, List.range_succ, List.flatMap_append, h1]
  simp [List.take_of_length_le]

/-- Buffers the guest has yet to hand over in the present call. -/
def yet : Sender → List Bytes
  | .call l _ => l
  | _ => []

def Order (env : Env) (h : Host) : Prop :=
  handedOver env h.batches = h.handled ++ (h.recvQ ++ yet h.sender)

theorem order_call {env : Env} {h : Host} (ho : Order env h) (hy : yet h.sender = []) (nx : Option Frame) :
    Order env (h.callGuest env nx) := by
  have ho' : handedOver env h.batches = h.handled ++ (h.recvQ ++ yet h.sender) := ho
  show handedOver env (h.batches ++ [_]) = h.handled ++ (h.recvQ ++ env.guest (h.batches ++ [_]))
  rw [handedOver_append, ho', hy]
  simp [List.append_assoc]

theorem order_step {env : Env} {h h' : Host} {a : Act} (ho : Order env h) (hr : h.step env a = some (.ok h')) :
    Order env h' := by
  have ho' : handedOver env h.batches = h.handled ++ (h.recvQ ++ yet h.sender) := ho
  cases a with
  | send f =>
    simp only [Host.step, Host.sendFrame] at hr
    split at hr
    · cases hr
    · split at hr <;> cases hr; exact ho
  | close => simp only [Host.step, Host.close] at hr; split at hr <;> cases hr; exact ho
  | sender =>
    simp only [Host.step, Host.sendStep] at hr
    cases hs : h.sender with
    | range =>
      simp only [hs] at hr
      rw [hs] at ho'
      split at hr
      · cases hr; exact ho'
      · split at hr <;> cases hr; exact ho'
    | sel =>
      simp only [hs] at hr
      split at hr
      · cases hr; rw [hs] at ho'; exact ho'
      · split at hr
        · cases hr
        · split at hr <;> cases hr
          · exact order_call ho (by rw [hs]; rfl) none
          · rw [hs] at ho'; exact ho'
    | write f =>
      simp only [hs] at hr
      split at hr
      · cases hr; exact order_call ho (by rw [hs]; rfl) _
      · rw [put_receiver (Option.some.inj hr)]; rw [hs] at ho'; exact ho'
    | call l nx =>
      simp only [hs] at hr
      rw [hs] at ho'
      cases l with
      | cons o l =>
        simp only at hr
        split at hr
        · cases hr
        · split at hr <;> cases hr
          show handedOver env h.batches = h.handled ++ ((h.recvQ ++ [o]) ++ l)
          rw [ho']; simp [yet]
      | nil =>
        cases nx with
        | none => simp only at hr; cases hr; exact ho'
        | some f => simp only at hr; rw [put_receiver (Option.some.inj hr)]; exact ho'
    | done => simp only [hs] at hr; cases hr
  | receiver =>
    simp only [Host.step, Host.recvStep] at hr
    split at hr
    · split at hr
      · rename_i o q hq
        cases hr
        show handedOver env h.batches = (h.handled ++ [o]) ++ (q ++ yet h.sender)
        rw [ho', hq]; simp
      · split at hr <;> cases hr; exact ho
    · rename_i f fs hrc
      cases hs : h.sendFrame f with
      | none => rw [hs] at hr; cases hr
      | some r =>
        rw [hs] at hr
        simp only [Host.sendFrame] at hs
        split at hs
        · cases hs; cases hr
        · split at hs <;> cases hs
          cases hr; exact ho
    · cases hr; exact ho
    · cases hr

theorem order_run {env : Env} (acts : List Act) : ∀ (h h' : Host), Order env h → h.run env acts = some (.ok h') →
    Order env h' := by
  induction acts with
  | nil => intro h h' hn hr; cases hr; exact hn
  | cons a as ih =>
    intro h h' hn hr
    rw [Host.run] at hr
    split at hr
    · cases hr
    · exact ih _ _ (order_step hn (by assumption)) hr
    · cases hr
    · cases hr

/-- **C45** The buffers the guest hands over, in all calls, are handled by the receiving loop in this order, each
once, up to those that are queued or still to be handed over (`waiting`), of which there are none once both loops
are idle. -/
theorem buffers_handled_in_order (env : Env) (acts : List Act) (h : Host)
    (hr : Host.init.run env acts = some (.ok h)) :
    ∃ waiting, handedOver env h.batches = h.handled ++ waiting ∧
      (h.sender = .range → h.recvQ = [] → waiting = []) :=
  ⟨_, order_run acts _ _ (show Order env Host.init from rfl) hr, fun h1 h2 => by rw [h1, h2]; rfl⟩

/-- What `hostSend` makes of a buffer with any number of frames: each frame together with all that follows it. -/
theorem hostSend_several (ms : List Bytes) (hm : ∀ m ∈ ms, m.length < 2 ^ 24) (r : Bytes) :
    hostSend (stream ms ++ r) (stream ms).length =
      ((List.range ms.length).map fun i => ms.getD i [] ++ stream (ms.drop (i + 1)), true) := by
  rw [hostSend, List.take_left]
  have hf : ms.length < (stream ms ++ r).length + 1 := by have := stream_length ms; simp; omega
  generalize (stream ms ++ r).length + 1 = fuel at hf
  induction ms generalizing fuel with
  | nil => cases fuel with
    | zero => simp at hf
    | succ n => rfl
  | cons m ms ih =>
    cases fuel with
    | zero => simp at hf
    | succ n =>
      rw [stream, hostLoop_packet n m (stream ms) (hm m (by simp)),
        ih (fun x hx => hm x (by simp [hx])) n (by simp at hf; omega)]
      simp only [List.length_cons, List.range_succ_eq_map, List.map_cons, List.map_map]
      rfl

/-- **C45** is false: of two frames in one buffer, the host gets the first with the second, length and all, at the
end of its data. -/
theorem two_frames_refuted : ∃ (a b : Frame) (raw : Bytes) (rest : List Bytes) (ok : Bool), Legal a ∧ Legal b ∧
    hostSend (stream [image a, image b]) (stream [image a, image b]).length = (raw :: rest, ok) ∧
    a = .payload ⟨1, [], [5], false, false, true⟩ ∧
    decodeFrame raw = .ok (.payload ⟨1, [], [5, 0, 0, 6, 0, 0, 0, 1, 36, 0], false, false, true⟩) :=
  ⟨.payload ⟨1, [], [5], false, false, true⟩, .cancel ⟨1⟩,
    image (.payload ⟨1, [], [5], false, false, true⟩) ++ stream [image (.cancel ⟨1⟩)], [image (.cancel ⟨1⟩) ++ []], true,
    by decide, by decide, by
      have := hostSend_several [image (.payload ⟨1, [], [5], false, false, true⟩), image (.cancel ⟨1⟩)]
        (by intro m hm; simp at hm; rcases hm with rfl | rfl <;> decide) []
      rw [List.append_nil] at this
      rw [this]
      rfl, rfl, rfl⟩

/-! ## C64 -/

/-- Encoding a payload without metadata: the data is cut off at the end of the buffer. -/
theorem encode_empty_md (p : Payload) (hm : p.metadata = []) (o r : Bytes) (ho : o.length = 6) :
    (Frame.payload p).encode (o ++ r) =
      .ok (newHeader p.streamID tPayload p.flags ++ (p.data.take r.length ++ r.drop p.data.length)) := by
  have hb := resetHeader_append [] o r p.streamID tPayload p.flags ho
  have hadv := Cur.adv_append [] (newHeader p.streamID tPayload p.flags) r (n := 6) (by simp [newHeader, be32, be16])
  show Payload.encode p (o ++ r) = _
  rw [Payload.encode, Cur.start, hb, Res.ok_bind, headerLen, hadv, Res.ok_bind]
  simp [encodeBody, hm, u32len, Cur.copy, Cur.buf]

theorem newHeader_length (s : UInt32) (t : FrameType) (f : FrameFlag) : (newHeader s t f).length = 6 := by
  simp [newHeader, be32, be16]

/-- The image of a payload without metadata. -/
theorem image_empty_md (p : Payload) (hl : Legal (.payload p)) (hm : p.metadata = []) :
    image (.payload p) = newHeader p.streamID tPayload p.flags ++ p.data := by
  have hsz : (Frame.payload p).size = 6 + p.data.length := by
    have := hl.2.2
    simp [Frame.size, Payload.size, hm, u32len, headerLen]; omega
  have e1 := (encode_wire _ hl (List.replicate 6 0 ++ List.replicate p.data.length 0) (by rw [hsz]; simp; omega)).2
  rw [encode_empty_md p hm _ _ (by simp), hsz, List.drop_of_length_le (by simp), List.append_nil] at e1
  rw [List.drop_of_length_le (by simp; omega), List.append_nil, List.take_of_length_le (by simp)] at e1
  injection e1 with e1
  exact e1.symm

/-- A payload without metadata that does not fit the 16 KiB buffers, with its length prefix. -/
structure TooLarge (p : Payload) : Prop where
  legal : Legal (.payload p)
  md : p.metadata = []
  large : 16384 < p.data.length + 9
  small : p.data.length + 6 < 2 ^ 24

theorem TooLarge.size {p : Payload} (h : TooLarge p) : (Frame.payload p).size = 6 + p.data.length := by
  have := h.small
  simp [Frame.size, Payload.size, h.md, u32len, headerLen]; omega

theorem putTooLarge {p : Payload} (h : TooLarge p) {x : Host} (hx : x.mem.length = 16384) (h0 : x.pos = 0) :
    ∃ r : Bytes, r.length + 3 = 16384 ∧ x.put (.payload p) =
      .ok { x with mem := beBytes 3 (6 + p.data.length) ++ r, pos := 9 + p.data.length, sender := .sel } := by
  obtain ⟨o, r, hb, ho⟩ := exists_split x.mem (n := 3) (by omega)
  obtain ⟨o', r', rfl, ho'⟩ := exists_split r (n := 6) (by rw [hb] at hx; simp at hx; omega)
  have hl : r'.length = 16375 := by rw [hb] at hx; simp at hx; omega
  have e1 : sliceFrom x.mem x.pos = .ok x.mem := by rw [sliceFrom, if_pos (by omega), h0]; rfl
  have e2 : ((Cur.start x.mem).copy ((beBytes 4 (6 + p.data.length)).drop 1)).buf =
      beBytes 3 (6 + p.data.length) ++ (o' ++ r') := by
    rw [hb, Cur.start, beBytes4_drop, Cur.copy_append _ _ _ _ (by simp [ho])]; rfl
  have e3 : sliceFrom (beBytes 3 (6 + p.data.length) ++ (o' ++ r')) 3 = .ok (o' ++ r') := by
    rw [sliceFrom, if_pos (by simp), List.drop_left' (by simp)]
  have e4 := encode_empty_md p h.md o' r' ho'
  have e5 : u32len (x.pos + 3 + (6 + p.data.length)) = 9 + p.data.length := by
    have := h.small; unfold u32len; omega
  refine ⟨newHeader p.streamID tPayload p.flags ++ (p.data.take r'.length ++ r'.drop p.data.length), ?_, ?_⟩
  · have := h.large; simp [newHeader_length, hl]; omega
  · rw [Host.put, h.size, encodeAt, h.size, e1, Res.ok_bind, e5]
    simp only [e2, e3, Res.ok_bind, e4]
    rw [List.take_left' (show (beBytes 3 (6 + p.data.length)).length = 3 by simp), Res.pure_eq, h0]
    rfl

theorem full_tooLarge {p : Payload} (h : TooLarge p) : full 0 (.payload p) = true := by
  have h1 := h.large; have h2 := h.small
  simp only [full, h.size, u32len, sendSize, ge_iff_le, decide_eq_true_eq]
  omega

theorem guestSend_short {n k : Nat} {r : Bytes} (hn : n < 2 ^ 24) (hr : r.length < n) :
    guestSend (beBytes 3 n ++ r) (k + 1) = ([], false) := by
  have ht : (beBytes 3 n ++ r).take 3 = beBytes 3 n := List.take_left' (by simp)
  rw [guestSend, guestLoop, if_neg (by simp), ht, beNat_beBytes, Nat.mod_eq_of_lt (by omega), if_pos (by simp; omega)]

/-- A host with one frame sent so far. -/
def host1 (f : Frame) (s : Sender) (bs : List (List Bytes × Bool)) (mem : Bytes) (pos : Nat) : Host :=
  { sender := s, sent := [f], batches := bs, mem := mem, pos := pos }

theorem start_tooLarge {p : Payload} (hf : full 0 (.payload p) = true) (as : List Act) :
    Host.init.run quiet (.send (.payload p) :: .sender :: .sender :: as) =
      (host1 (.payload p) (.call [] (some (.payload p))) [([], true)] (List.replicate sendSize 0) 0).run quiet as := by
  have s1 : Host.init.step quiet (.send (.payload p)) = some (.ok { sendQ := [.payload p], sent := [.payload p] }) := rfl
  have s2 : ({ sendQ := [.payload p], sent := [.payload p] } : Host).step quiet .sender =
    some (.ok { sender := .write (.payload p), sent := [.payload p] }) := rfl
  have g0 : guestSend (List.replicate sendSize 0) 0 = ([], true) := by simp only [guestSend, guestLoop]
  have s3 : ({ sender := .write (.payload p), sent := [.payload p] } : Host).step quiet .sender =
      some (.ok (host1 (.payload p) (.call [] (some (.payload p))) [([], true)] (List.replicate sendSize 0) 0)) := by
    simp only [Host.step, Host.sendStep, hf, if_true, Host.callGuest, g0]
    rfl
  rw [run_cons_ok s1, run_cons_ok s2, run_cons_ok s3]

/-- **C64** is false for frames to a guest: every payload that does not fit the buffer is accepted without an error,
makes the guest trap, and is gone. -/
theorem too_large_lost_refuted (p : Payload) (hp : TooLarge p) : ∃ h : Host,
    Host.init.run quiet [.send (.payload p), .sender, .sender, .sender, .sender, .sender] = some (.ok h) ∧
      h.sent = [.payload p] ∧ h.sendQ = [] ∧ h.sender = .range ∧ h.batches = [([], true), ([], false)] := by
  rw [start_tooLarge (full_tooLarge hp)]
  obtain ⟨r, hr, hput⟩ := putTooLarge hp
    (x := host1 (.payload p) (.call [] (some (.payload p))) [([], true)] (List.replicate sendSize 0) 0)
    (by simp only [host1, List.length_replicate]; rfl) rfl
  generalize hm : beBytes 3 (6 + p.data.length) ++ r = m at hput
  generalize hn : 9 + p.data.length = n at hput
  have s4 : (host1 (.payload p) (.call [] (some (.payload p))) [([], true)] (List.replicate sendSize 0) 0).step
      quiet .sender = some (.ok (host1 (.payload p) .sel [([], true)] m n)) := congrArg some hput
  have hg : guestSend m n = ([], false) := by
    have h1 := hp.large; have h2 := hp.small
    rw [← hm, show n = (8 + p.data.length) + 1 by omega]
    exact guestSend_short (by omega) (by omega)
  have hc : (host1 (.payload p) .sel [([], true)] m n).callGuest quiet none =
      host1 (.payload p) (.call [] none) [([], true), ([], false)] m n := by
    simp only [Host.callGuest, host1, hg, quiet]; rfl
  have s5 : (host1 (.payload p) .sel [([], true)] m n).step quiet .sender =
      some (.ok (host1 (.payload p) (.call [] none) [([], true), ([], false)] m n)) := by
    rw [← hc]
    have : n > 0 := by omega
    simp [Host.step, Host.sendStep, host1, this]
  refine ⟨host1 (.payload p) .range [([], true), ([], false)] m 0, ?_, rfl, rfl, rfl, rfl⟩
  rw [run_cons_ok s4, run_cons_ok s5]
  rfl

example : TooLarge ⟨2, [], List.replicate 16376 7, false, true, true⟩ :=
  ⟨by refine ⟨by decide, by decide, ?_⟩; rw [List.length_replicate]; decide, rfl,
    by rw [List.length_replicate]; decide, by rw [List.length_replicate]; decide⟩

theorem encode_large_md (p : Payload) (hm : p.metadata.length < 2 ^ 24) (hm0 : 0 < p.metadata.length) (buf : Bytes)
    (hb : buf.length < p.metadata.length + 9) : (Frame.payload p).encode buf = .panic := by
  show Payload.encode p buf = _
  rcases Nat.lt_or_ge buf.length 6 with h6 | h6
  · rw [Payload.encode, Cur.start, resetHeader, Cur.putAt]
    split
    · rw [Res.ok_bind, Cur.putAt, if_neg]
      · rfl
      · simp; omega
    · rfl
  · obtain ⟨o, r, rfl, ho⟩ := exists_split buf h6
    have hr := resetHeader_append [] o r p.streamID tPayload p.flags ho
    have hadv := Cur.adv_append [] (newHeader p.streamID tPayload p.flags) r (n := 6) (by simp [newHeader_length])
    have hu : u32len p.metadata.length = p.metadata.length := by unfold u32len; omega
    rw [Payload.encode, Cur.start, hr, Res.ok_bind, headerLen, hadv, Res.ok_bind, encodeBody]
    simp only [hu, gt_iff_lt, hm0, if_true]
    rcases Nat.lt_or_ge r.length 3 with h3 | h3
    · rw [Cur.putAt, if_neg (by simp; omega)]; rfl
    · obtain ⟨o', r', rfl, ho'⟩ := exists_split r h3
      have hp := Cur.putAt_append ([] ++ newHeader p.streamID tPayload p.flags) [] o' r'
        ((beBytes 4 p.metadata.length).drop 1) (by simp [ho'])
      simp only [List.nil_append, List.length_nil] at hp
      have ha := Cur.adv_append (newHeader p.streamID tPayload p.flags) ((beBytes 4 p.metadata.length).drop 1) r'
        (n := 3) (by simp)
      simp only [List.nil_append, hp, Res.ok_bind, ha]
      rw [Cur.adv, if_neg]
      · rfl
      · simp [Cur.copy]; simp at hb; omega

/-- **C64** is false for frames to a guest: a payload whose metadata does not fit the buffer crashes the host. -/
theorem large_metadata_crashes_refuted (p : Payload) (hs : 16384 < p.metadata.length + 12)
    (hm : p.metadata.length < 2 ^ 24) (hd : p.data.length < 2 ^ 24) :
    Host.init.run quiet [.send (.payload p), .sender, .sender, .sender] = some .panic := by
  have hsz : (Frame.payload p).size = 9 + p.metadata.length + p.data.length := by
    simp [Frame.size, Payload.size, u32len, headerLen]
    rw [if_pos (by omega)]; omega
  have hf : full 0 (.payload p) = true := by
    simp only [full, hsz, u32len, sendSize, ge_iff_le, decide_eq_true_eq]
    omega
  have hput : ∀ x : Host, x.mem.length = 16384 → x.pos = 0 → x.put (.payload p) = .panic := by
    intro x hx h0
    obtain ⟨o, r, hb, ho⟩ := exists_split x.mem (n := 3) (by omega)
    have e1 : sliceFrom x.mem x.pos = .ok x.mem := by rw [sliceFrom, if_pos (by omega), h0]; rfl
    have e2 : ((Cur.start x.mem).copy ((beBytes 4 (Frame.payload p).size).drop 1)).buf =
        beBytes 3 (Frame.payload p).size ++ r := by
      rw [hb, Cur.start, beBytes4_drop, Cur.copy_append _ _ _ _ (by simp [ho])]; rfl
    have e3 : sliceFrom (beBytes 3 (Frame.payload p).size ++ r) 3 = .ok r := by
      rw [sliceFrom, if_pos (by simp), List.drop_left' (by simp)]
    have e4 := encode_large_md p hm (by omega) r (by rw [hb] at hx; simp at hx; omega)
    rw [Host.put, encodeAt, e1, Res.ok_bind]
    simp only [e2, e3, Res.ok_bind, e4]
    rfl
  rw [start_tooLarge hf]
  exact run_cons_panic (congrArg some (hput
    { host1 (.payload p) (.call [] (some (.payload p))) [([], true)] (List.replicate sendSize 0) 0 with pos := 0 }
    (by simp only [host1, List.length_replicate]; rfl) rfl))

/-- **C64** is false for frames to the host: every payload that does not fit is delivered with the guest's memory
after the buffer (`r`) in place of the end of its data. -/
theorem too_large_corrupt_refuted (p : Payload) (hp : TooLarge p) (buf r : Bytes) (hb : buf.length = 16384)
    (hr : p.data.length ≤ 16375 + r.length) : ∃ buf' n raw ok, doSendFrame buf (.payload p) = .ok (buf', n) ∧
      buf'.length = 16384 ∧ hostSend (buf' ++ r) n = ([raw], ok) ∧
      decodeFrame raw = .ok (.payload { p with data := p.data.take 16375 ++ r.take (p.data.length - 16375) }) := by
  obtain ⟨o, r1, rfl, ho⟩ := exists_split buf (n := 3) (by omega)
  obtain ⟨o', r', rfl, ho'⟩ := exists_split r1 (n := 6) (by simp at hb; omega)
  have h1 := hp.large; have h2 := hp.small
  have hl' : r'.length = 16375 := by simp at hb; omega
  have e1 : sliceTo (o ++ (o' ++ r')) 3 = .ok o := by rw [sliceTo, if_pos (by simp; omega), ← ho, List.take_left]
  have e2 : sliceFrom (o ++ (o' ++ r')) 3 = .ok (o' ++ r') := by
    rw [sliceFrom, if_pos (by simp; omega), ← ho, List.drop_left]
  have e3 : ((Cur.start o).copy ((beBytes 4 (6 + p.data.length)).drop 1)).buf = beBytes 3 (6 + p.data.length) := by
    have := Cur.copy_append [] o [] ((beBytes 4 (6 + p.data.length)).drop 1) (by simp [ho])
    rw [List.append_nil] at this
    rw [Cur.start, this, beBytes4_drop, List.append_nil]; rfl
  have e4 := encode_empty_md p hp.md o' r' ho'
  have e4' : r'.drop p.data.length = [] := List.drop_of_length_le (by omega)
  rw [e4', hl', List.append_nil] at e4
  have e5 : u32len (6 + p.data.length + 3) = 9 + p.data.length := by unfold u32len; omega
  let q : Payload := { p with data := p.data.take 16375 ++ r.take (p.data.length - 16375) }
  have hqd : q.data.length = p.data.length := by simp [q]; omega
  have hlq : Legal (.payload q) := ⟨hp.legal.1, hp.legal.2.1, by rw [hqd]; exact hp.legal.2.2⟩
  have hfl : q.flags = p.flags := rfl
  have himg := image_empty_md q hlq hp.md
  have himl : (image (.payload q)).length = 6 + p.data.length := by
    rw [himg, List.length_append, newHeader_length, hqd]
  refine ⟨beBytes 3 (6 + p.data.length) ++ (newHeader p.streamID tPayload p.flags ++ p.data.take 16375),
    9 + p.data.length, image (.payload q), true, ?_, ?_, ?_, ?_⟩
  · rw [doSendFrame, hp.size, e1, Res.ok_bind, e2, Res.ok_bind, e4, Res.ok_bind, e3, e5]; rfl
  · simp [newHeader_length]; omega
  · have hsplit : (beBytes 3 (6 + p.data.length) ++ (newHeader p.streamID tPayload p.flags ++ p.data.take 16375) ++ r).take
        (9 + p.data.length) = packet (image (.payload q)) := by
      rw [packet, himl, himg]
      show _ = beBytes 3 (6 + p.data.length) ++ (newHeader p.streamID tPayload p.flags ++
        (p.data.take 16375 ++ r.take (p.data.length - 16375)))
      rw [List.take_append, List.take_of_length_le (by simp [newHeader_length]; omega)]
      rw [show (9 + p.data.length - (beBytes 3 (6 + p.data.length) ++
        (newHeader p.streamID tPayload p.flags ++ p.data.take 16375)).length) = p.data.length - 16375 by
          simp [newHeader_length]; omega]
      simp [List.append_assoc]
    rw [hostSend, hsplit]
    have := hostLoop_packet ((beBytes 3 (6 + p.data.length) ++ (newHeader p.streamID tPayload p.flags ++
      p.data.take 16375) ++ r).length) (image (.payload q)) [] (by rw [himl]; omega)
    rw [List.append_nil, List.append_nil] at this
    rw [this]
    cases hn : (beBytes 3 (6 + p.data.length) ++ (newHeader p.streamID tPayload p.flags ++
      p.data.take 16375) ++ r).length with
    | zero => simp at hn
    | succ n => rfl
  · have := decode_image hlq
    exact this

end Iota.Props.WasmRecv
