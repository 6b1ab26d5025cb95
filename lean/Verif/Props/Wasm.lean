import Verif.Model.Wasm
import Verif.Props.Framing

/-! # C44–C47, C64: frames between a WebAssembly host and its guest -/

namespace Iota.Props.Wasm
open Iota.Go Iota.Frames Iota.Wasm Iota.Spec.Framing Iota.Props.Frames Iota.Props.Framing
open Iota.Spec.RSocket

/-! ## Cutting frames out of the buffer -/

theorem take3_packet (m r : Bytes) : (packet m ++ r).take 3 = beBytes 3 m.length := by
  rw [packet, List.append_assoc, List.take_append_of_le_length (by simp), List.take_of_length_le (by simp)]

theorem beNat_len {m : Bytes} (h : m.length < 2 ^ 24) : beNat (beBytes 3 m.length) = m.length :=
  by rw [beNat_beBytes, Nat.mod_eq_of_lt (by omega)]

theorem drop3_packet (m r : Bytes) : (packet m ++ r).drop 3 = m ++ r := by
  rw [packet, List.append_assoc, List.drop_left' (by simp)]

theorem guestLoop_stream (ms : List Bytes) (hm : ∀ m ∈ ms, 6 ≤ m.length ∧ m.length < 2 ^ 24) (r : Bytes) :
    ∀ fuel, ms.length < fuel → guestLoop fuel (stream ms).length (stream ms ++ r) = (ms, true) := by
  induction ms with
  | nil => intro fuel hf; cases fuel with
    | zero => simp at hf
    | succ n => rfl
  | cons m ms ih =>
    intro fuel hf
    cases fuel with
    | zero => simp at hf
    | succ n =>
      have h := hm m (by simp)
      have ih := ih (fun x hx => hm x (by simp [hx])) n (by simp at hf; omega)
      have hl : (stream (m :: ms)).length = (m.length + 2 + (stream ms).length) + 1 := by
        simp [stream, packet_length]; omega
      have ht : (stream (m :: ms) ++ r).take 3 = beBytes 3 m.length := by
        rw [stream, List.append_assoc, take3_packet]
      have hd : (stream (m :: ms) ++ r).drop 3 = m ++ (stream ms ++ r) := by
        rw [stream, List.append_assoc, drop3_packet]
      have hd2 : (stream (m :: ms) ++ r).drop (3 + m.length) = stream ms ++ r := by
        rw [← List.drop_drop, hd, List.drop_left]
      have hlen : (stream (m :: ms) ++ r).length = 3 + m.length + (stream ms ++ r).length := by
        simp [stream, packet_length]; omega
      rw [hl, guestLoop, if_neg (by omega)]
      rw [ht, beNat_len h.2, if_neg (by omega), if_neg (by unfold headerLen; omega), hd, hd2,
        List.take_left, show m.length + 2 + (stream ms).length + 1 - (3 + m.length) = (stream ms).length by omega, ih]

theorem stream_length (ms : List Bytes) : 3 * ms.length ≤ (stream ms).length := by
  induction ms with
  | nil => simp [stream]
  | cons m ms ih => simp [stream, packet_length]; omega

/-- The guest cuts out exactly the frames that were written. -/
theorem guestSend_stream (ms : List Bytes) (hm : ∀ m ∈ ms, 6 ≤ m.length ∧ m.length < 2 ^ 24) (r : Bytes) :
    guestSend (stream ms ++ r) (stream ms).length = (ms, true) :=
  guestLoop_stream ms hm r _ (by have := stream_length ms; simp; omega)

/-! ## Writing -/

/-- A frame that can be sent to a guest: it is legal and fits the buffer. -/
def Fits (f : Frame) : Prop := Legal f ∧ f.size + 3 ≤ 16384

instance (f : Frame) : Decidable (Fits f) := by unfold Fits; infer_instance

theorem encodeAt_fits {mem : Bytes} {pos : Nat} {f : Frame} (hl : Legal f) (h : pos + 3 + f.size ≤ mem.length)
    (h24 : f.size < 2 ^ 24) :
    encodeAt mem pos f = .ok (mem.take pos ++ packet (image f) ++ mem.drop (pos + 3 + f.size)) := by
  obtain ⟨a, b, hm, ha⟩ := exists_split mem (show pos ≤ mem.length by omega)
  obtain ⟨o, r, hb, ho⟩ := exists_split b (show 3 ≤ b.length by subst hm; simp at h; omega)
  subst hm; subst hb
  have e1 : sliceFrom (a ++ (o ++ r)) pos = .ok (o ++ r) := by
    rw [sliceFrom, if_pos (by simp; omega), ← ha, List.drop_left]
  have e2 : ((Cur.start (o ++ r)).copy ((beBytes 4 f.size).drop 1)).buf = beBytes 3 f.size ++ r := by
    rw [Cur.start, Iota.Frames.beBytes4_drop, Cur.copy_append _ _ _ _ (by simp [ho])]; rfl
  have e3 : sliceFrom (beBytes 3 f.size ++ r) 3 = .ok r := by
    rw [sliceFrom, if_pos (by simp), List.drop_left' (by simp)]
  have e4 := (encode_wire f hl r (by simp at h; omega)).2
  rw [encodeAt, e1, Res.ok_bind]
  simp only [e2, e3, Res.ok_bind, e4]
  rw [List.take_left' (show (beBytes 3 f.size).length = 3 by simp), Res.pure_eq]
  have e5 : (a ++ (o ++ r)).take pos = a := by rw [← ha, List.take_left]
  have e6 : (a ++ (o ++ r)).drop (pos + 3 + f.size) = r.drop f.size := by
    rw [show pos + 3 + f.size = (a ++ o).length + f.size by simp; omega, ← List.append_assoc, ← List.drop_drop,
      List.drop_left]
  rw [e5, e6, packet, image_length hl, image]
  simp [List.append_assoc]

/-! ## The invariant of the sending loop -/

/-- The frame in the hands of the loop. -/
def inHand : Sender → List Frame
  | .write f => [f]
  | .call _ (some f) => [f]
  | _ => []

structure Inv (h : Host) (got pend : List Frame) : Prop where
  len : h.mem.length = sendSize
  pos : h.pos ≤ sendSize
  fits : ∀ f ∈ h.sent, Fits f
  sent : h.sent = got ++ (pend ++ (inHand h.sender ++ h.sendQ))
  batches : h.batches.flatMap Prod.fst = got.map image
  whole : ∀ b ∈ h.batches, b.2 = true
  empty : (h.sender = .range ∨ h.sender = .done) → pend = [] ∧ h.pos = 0
  calling : ∀ o n, h.sender = .call o n → pend = []
  buffer : (h.sender = .sel ∨ (∃ f, h.sender = .write f) ∨ h.sender = .range) →
    h.pos = (stream (pend.map image)).length ∧ h.mem.take h.pos = stream (pend.map image)

theorem inv_init : Inv Host.init [] [] :=
  ⟨by simp [Host.init], by simp [Host.init], by simp [Host.init], by simp [Host.init, inHand],
    by simp [Host.init], by simp [Host.init], by simp [Host.init], by simp, by simp [Host.init, stream]⟩

theorem fits_small {f : Frame} (h : Fits f) : f.size < 2 ^ 24 := by have := h.2; omega

theorem image_bounds {f : Frame} (h : Fits f) : 6 ≤ (image f).length ∧ (image f).length < 2 ^ 24 :=
  ⟨image_ge f, by rw [image_length h.1]; exact fits_small h⟩

theorem stream_append1 (a : List Bytes) (m : Bytes) : stream (a ++ [m]) = stream a ++ packet m := by
  rw [stream_append]; simp [stream]

theorem put_ok {h : Host} {f : Frame} (hl : h.mem.length = sendSize) (hf : Fits f)
    (hp : h.pos + 3 + f.size ≤ sendSize) {pend : List Frame}
    (hb : h.pos = (stream (pend.map image)).length ∧ h.mem.take h.pos = stream (pend.map image)) :
    ∃ h', h.put f = .ok h' ∧ h' = { h with mem := h'.mem, pos := h'.pos, sender := .sel } ∧
      h'.mem.length = sendSize ∧ h'.pos ≤ sendSize ∧
      h'.pos = (stream ((pend ++ [f]).map image)).length ∧
      h'.mem.take h'.pos = stream ((pend ++ [f]).map image) := by
  have e := encodeAt_fits (mem := h.mem) (pos := h.pos) hf.1 (by omega) (fits_small hf)
  have il := image_length hf.1
  have pl := packet_length (image f)
  have s16 : sendSize = 16384 := rfl
  have es : stream ((pend ++ [f]).map image) = stream (pend.map image) ++ packet (image f) := by
    rw [List.map_append]; exact stream_append1 _ _
  have eu : u32len (h.pos + 3 + f.size) = h.pos + 3 + f.size := by unfold u32len; omega
  refine ⟨_, by rw [Host.put, e]; rfl, rfl, ?_, ?_, ?_, ?_⟩
  · simp only [List.length_append, List.length_take, List.length_drop, pl]; omega
  · simp only [eu]; omega
  · simp only [eu, es, List.length_append, pl]; omega
  · simp only [eu, es]
    rw [hb.2]
    exact List.take_left' (by simp only [List.length_append, pl]; omega)

theorem call_inv {env : Env} {h : Host} {got pend : List Frame} (hi : Inv h got pend) (nx : Option Frame)
    (hs : h.sender = .sel ∨ ∃ f, h.sender = .write f) (hn : inHand h.sender = nx.toList) :
    Inv (h.callGuest env nx) (got ++ pend) [] := by
  have hb := hi.buffer (by rcases hs with hs | hs <;> simp [hs])
  have hfit : ∀ f ∈ pend, Fits f := fun f hf => hi.fits f (by rw [hi.sent]; simp [hf])
  have hg : guestSend h.mem h.pos = (pend.map image, true) := by
    have := guestSend_stream (pend.map image) (by
      intro m hm; obtain ⟨f, hf, rfl⟩ := List.mem_map.mp hm; exact image_bounds (hfit f hf)) (h.mem.drop h.pos)
    rw [← hb.1, ← hb.2, List.take_append_drop] at this
    exact this
  refine ⟨hi.len, hi.pos, hi.fits, ?_, ?_, ?_, ?_, ?_, ?_⟩
  · rw [show (h.callGuest env nx).sent = h.sent from rfl, hi.sent, hn]
    cases nx <;> simp [Host.callGuest, inHand]
  · simp [Host.callGuest, hg, hi.batches]
  · intro b hb; simp only [Host.callGuest, List.mem_append, List.mem_singleton] at hb
    rcases hb with hb | hb
    · exact hi.whole b hb
    · rw [hb, hg]
  · simp [Host.callGuest]
  · simp
  · simp [Host.callGuest]

/-- What the next step of the sending loop leaves. -/
theorem sendStep_inv {env : Env} {h : Host} {got pend : List Frame} (hi : Inv h got pend) {r : Res Host}
    (hr : h.sendStep env = some r) : (h.closed = true ∧ r = .panic) ∨
      ∃ h' got' pend', r = .ok h' ∧ Inv h' got' pend' ∧ h'.sent = h.sent ∧ h'.closed = h.closed := by
  unfold Host.sendStep at hr
  cases hs : h.sender with
  | range =>
    simp only [hs] at hr
    have he := hi.empty (Or.inl hs)
    cases hq : h.sendQ with
    | nil =>
      simp only [hq] at hr
      split at hr
      · cases hr
        refine Or.inr ⟨_, got, pend, rfl, ⟨hi.len, hi.pos, hi.fits, ?_, hi.batches, hi.whole, fun _ => he, ?_, ?_⟩, rfl, rfl⟩
        · have := hi.sent; rw [hs, hq] at this; simp only [hq]; exact this
        · simp
        · simp
      · cases hr
    | cons f q =>
      simp only [hq] at hr
      cases hr
      refine Or.inr ⟨_, got, pend, rfl, ⟨hi.len, hi.pos, hi.fits, ?_, hi.batches, hi.whole, ?_, ?_, ?_⟩, rfl, rfl⟩
      · have := hi.sent; rw [hs, hq] at this; rw [this]; rfl
      · simp
      · simp
      · intro _; exact hi.buffer (Or.inr (Or.inr hs))
  | sel =>
    simp only [hs] at hr
    have hb := hi.buffer (Or.inl hs)
    cases hq : h.sendQ with
    | nil =>
      simp only [hq] at hr
      split at hr
      · cases hr; exact Or.inl ⟨by assumption, rfl⟩
      · split at hr
        · cases hr
          exact Or.inr ⟨_, _, _, rfl, call_inv hi none (Or.inl hs) (by rw [hs]; rfl), rfl, rfl⟩
        · cases hr
          rename_i hp
          have hp0 : h.pos = 0 := by omega
          have hpe : pend = [] := by
            have := hb.1
            cases pend with
            | nil => rfl
            | cons a l => rw [hp0] at this; simp [stream, packet_length] at this; omega
          subst hpe
          refine Or.inr ⟨_, got, [], rfl, ⟨hi.len, hi.pos, hi.fits, ?_, hi.batches, hi.whole, fun _ => ⟨rfl, hp0⟩, ?_, fun _ => hb⟩, rfl, rfl⟩
          · have := hi.sent; rw [hs, hq] at this; simp only [hq]; exact this
          · simp
    | cons f q =>
      simp only [hq] at hr
      cases hr
      refine Or.inr ⟨_, got, pend, rfl, ⟨hi.len, hi.pos, hi.fits, ?_, hi.batches, hi.whole, ?_, ?_, fun _ => hb⟩, rfl, rfl⟩
      · have := hi.sent; rw [hs, hq] at this; rw [this]; rfl
      · simp
      · simp
  | write f =>
    simp only [hs] at hr
    have hb := hi.buffer (Or.inr (Or.inl ⟨f, hs⟩))
    have hf : Fits f := hi.fits f (by rw [hi.sent, hs]; simp [inHand])
    split at hr
    · cases hr
      exact Or.inr ⟨_, _, _, rfl, call_inv hi (some f) (Or.inr ⟨f, hs⟩) (by rw [hs]; rfl), rfl, rfl⟩
    · rename_i hfull
      cases hr
      have hp : h.pos + 3 + f.size ≤ sendSize := by
        have h1 := hi.pos; have h2 := hf.2
        have s16 : sendSize = 16384 := rfl
        have : u32len (h.pos + 3 + f.size) = h.pos + 3 + f.size := by unfold u32len; omega
        simp [full, this] at hfull; omega
      obtain ⟨h', e1, e2, e3, e4, e5, e6⟩ := put_ok hi.len hf hp hb
      have hsd : h'.sender = .sel := by rw [e2]
      refine Or.inr ⟨h', got, pend ++ [f], e1, ⟨e3, e4, ?_, ?_, ?_, ?_, ?_, ?_, fun _ => ⟨e5, e6⟩⟩, by rw [e2], by rw [e2]⟩
      · rw [e2]; exact hi.fits
      · have := hi.sent; rw [hs] at this; rw [e2]; simp [this, inHand]
      · rw [e2]; exact hi.batches
      · rw [e2]; exact hi.whole
      · rw [hsd]; simp
      · rw [hsd]; simp
  | call outs nx =>
    simp only [hs] at hr
    have hpe := hi.calling _ _ hs
    subst hpe
    cases outs with
    | cons o outs =>
      simp only at hr
      split at hr
      · cases hr; exact Or.inl ⟨by assumption, rfl⟩
      · split at hr
        · cases hr
          refine Or.inr ⟨_, got, [], rfl, ⟨hi.len, hi.pos, hi.fits, ?_, hi.batches, hi.whole, ?_, fun _ _ _ => rfl, ?_⟩, rfl, rfl⟩
          · have := hi.sent; rw [hs] at this; rw [this]; cases nx <;> rfl
          · simp
          · simp
        · cases hr
    | nil =>
      cases nx with
      | none =>
        simp only at hr
        cases hr
        refine Or.inr ⟨_, got, [], rfl, ⟨hi.len, Nat.zero_le _, hi.fits, ?_, hi.batches, hi.whole, ?_, ?_, ?_⟩, rfl, rfl⟩
        · have := hi.sent; rw [hs] at this; rw [this]; rfl
        · simp
        · simp
        · intro _; exact ⟨rfl, rfl⟩
      | some f =>
        simp only at hr
        cases hr
        have hf : Fits f := hi.fits f (by rw [hi.sent, hs]; simp [inHand])
        obtain ⟨h', e1, e2, e3, e4, e5, e6⟩ := put_ok (h := { h with pos := 0 }) hi.len hf
          (by have := hf.2; show 0 + 3 + f.size ≤ 16384; omega) (pend := []) ⟨rfl, rfl⟩
        have hsd : h'.sender = .sel := by rw [e2]
        refine Or.inr ⟨h', got, [f], e1, ⟨e3, e4, ?_, ?_, ?_, ?_, ?_, ?_, fun _ => ⟨e5, e6⟩⟩, by rw [e2], by rw [e2]⟩
        · rw [e2]; exact hi.fits
        · have := hi.sent; rw [hs] at this; rw [e2]; simp [this, inHand]
        · rw [e2]; exact hi.batches
        · rw [e2]; exact hi.whole
        · rw [hsd]; simp
        · rw [hsd]; simp
  | done => simp only [hs] at hr; cases hr

theorem sendFrame_inv {h : Host} {got pend : List Frame} (hi : Inv h got pend) {f : Frame} (hf : Fits f) {r : Res Host}
    (hr : h.sendFrame f = some r) : (h.closed = true ∧ r = .panic) ∨
      ∃ h', r = .ok h' ∧ Inv h' got pend ∧ h'.sent = h.sent ++ [f] ∧ h'.closed = h.closed := by
  unfold Host.sendFrame at hr
  split at hr
  · cases hr; exact Or.inl ⟨by assumption, rfl⟩
  · split at hr
    · cases hr
      refine Or.inr ⟨_, rfl, ⟨hi.len, hi.pos, ?_, ?_, hi.batches, hi.whole, hi.empty, hi.calling, hi.buffer⟩, rfl, rfl⟩
      · intro g hg
        simp only [List.mem_append, List.mem_singleton] at hg
        rcases hg with hg | hg
        · exact hi.fits g hg
        · subst hg; exact hf
      · simp only [hi.sent, List.append_assoc]
    · cases hr

/-- Changes of the receiving side do not matter. -/
theorem inv_recv {h : Host} {got pend : List Frame} (hi : Inv h got pend) (q : List Bytes) (hd : List Bytes)
    (r : Receiver) (c : Bool) : Inv { h with recvQ := q, handled := hd, receiver := r, closed := c } got pend :=
  ⟨hi.len, hi.pos, hi.fits, hi.sent, hi.batches, hi.whole, hi.empty, hi.calling, hi.buffer⟩

/-- Every frame that is sent fits. -/
structure AllFit (env : Env) (acts : List Act) : Prop where
  react : ∀ l, ∀ f ∈ env.react l, Fits f
  sends : ∀ f, Act.send f ∈ acts → Fits f

/-- Frames a run hands over by its `send` steps. -/
def sends : List Act → List Frame
  | [] => []
  | .send f :: as => f :: sends as
  | _ :: as => sends as

structure Inv' (env : Env) (h : Host) : Prop where
  inv : ∃ got pend, Inv h got pend
  handling : ∀ fs, h.receiver = .handle fs → ∀ f ∈ fs, Fits f

theorem step_inv {env : Env} {h : Host} (hi : Inv' env h) {a : Act} (hre : ∀ l, ∀ f ∈ env.react l, Fits f)
    (ha : ∀ f, a = .send f → Fits f) {r : Res Host} (hr : h.step env a = some r) :
    ((h.closed = true) ∧ r = .panic) ∨
      ∃ h', r = .ok h' ∧ Inv' env h' ∧ (h'.closed = true → h.closed = true ∨ a = .close) ∧
        ((∀ l, env.react l = []) → (h.receiver = .range ∨ h.receiver = .handle [] ∨ h.receiver = .done) →
          (h'.receiver = .range ∨ h'.receiver = .handle [] ∨ h'.receiver = .done) ∧ h'.sent = h.sent ++ sends [a]) := by
  obtain ⟨⟨got, pend, hi⟩, hh⟩ := hi
  cases a with
  | send f =>
    rcases sendFrame_inv hi (ha f rfl) hr with h1 | ⟨h', rfl, h2, h3, h4⟩
    · exact Or.inl h1
    · have hrc : h'.receiver = h.receiver := by
        simp only [Host.step, Host.sendFrame] at hr
        split at hr
        · cases hr
        · split at hr <;> cases hr; rfl
      exact Or.inr ⟨h', rfl, ⟨⟨_, _, h2⟩, by rw [hrc]; exact hh⟩, by rw [h4]; exact Or.inl,
        fun _ h5 => ⟨by rw [hrc]; exact h5, h3⟩⟩
  | close =>
    simp only [Host.step, Host.close] at hr
    cases hr
    split
    · exact Or.inl ⟨by assumption, rfl⟩
    · exact Or.inr ⟨_, rfl, ⟨⟨_, _, inv_recv hi _ _ _ _⟩, hh⟩, fun _ => Or.inr rfl, fun _ h5 => ⟨h5, by simp [sends]⟩⟩
  | sender =>
    rcases sendStep_inv hi hr with h1 | ⟨h', g', p', rfl, h2, h3, h4⟩
    · exact Or.inl h1
    · have hrc : h'.receiver = h.receiver := by
        have hp : ∀ (x x' : Host) (f : Frame), x.put f = .ok x' → x'.receiver = x.receiver := by
          intro x x' f hx
          simp only [Host.put] at hx
          cases he : encodeAt x.mem x.pos f <;> rw [he] at hx <;> cases hx; rfl
        simp only [Host.step, Host.sendStep] at hr
        split at hr <;> (try split at hr) <;> (try split at hr) <;> (try split at hr) <;> (try cases hr) <;>
          (try rfl)
        · exact hp _ _ _ (Option.some.inj hr)
        · exact hp ({ h with pos := 0 } : Host) _ _ (Option.some.inj hr)
      exact Or.inr ⟨h', rfl, ⟨⟨_, _, h2⟩, by rw [hrc]; exact hh⟩, by rw [h4]; exact Or.inl,
        fun _ h5 => ⟨by rw [hrc]; exact h5, by simp [sends, h3]⟩⟩
  | receiver =>
    simp only [Host.step, Host.recvStep] at hr
    cases hrc : h.receiver with
    | range =>
      simp only [hrc] at hr
      cases hq : h.recvQ with
      | nil =>
        simp only [hq] at hr
        split at hr
        · cases hr
          exact Or.inr ⟨_, rfl, ⟨⟨_, _, inv_recv hi _ _ _ _⟩, by simp⟩, Or.inl, fun _ _ => ⟨by simp, by simp [sends]⟩⟩
        · cases hr
      | cons o q =>
        simp only [hq] at hr
        cases hr
        refine Or.inr ⟨_, rfl, ⟨⟨_, _, inv_recv hi _ _ _ _⟩, ?_⟩, Or.inl, fun h0 _ => ⟨by simp [h0], by simp [sends]⟩⟩
        intro fs he f hf
        simp only [Receiver.handle.injEq] at he
        exact hre _ f (by rw [he]; exact hf)
    | handle fs =>
      simp only [hrc] at hr
      cases fs with
      | nil =>
        simp only at hr
        cases hr
        exact Or.inr ⟨_, rfl, ⟨⟨_, _, inv_recv hi _ _ _ _⟩, by simp⟩, Or.inl, fun _ _ => ⟨by simp, by simp [sends]⟩⟩
      | cons f fs =>
        simp only at hr
        have hff := hh _ hrc
        cases hs : h.sendFrame f with
        | none => rw [hs] at hr; cases hr
        | some r' =>
          rw [hs] at hr
          rcases sendFrame_inv hi (hff f (by simp)) hs with ⟨h1, rfl⟩ | ⟨h', rfl, h2, h3, h4⟩
          · cases hr; exact Or.inl ⟨h1, rfl⟩
          · cases hr
            refine Or.inr ⟨_, rfl, ⟨⟨_, _, inv_recv h2 _ _ _ _⟩, ?_⟩, ?_, ?_⟩
            · intro fs' he g hg
              simp only [Receiver.handle.injEq] at he
              exact hff g (by simp [he, hg])
            · intro h5; exact Or.inl (by rw [← h4]; exact h5)
            · intro _ h5; simp at h5
    | done => simp only [hrc] at hr; cases hr

theorem sends_cons (a : Act) (as : List Act) : sends (a :: as) = sends [a] ++ sends as := by cases a <;> rfl

theorem run_inv {env : Env} (hre : ∀ l, ∀ f ∈ env.react l, Fits f) (acts : List Act) :
    ∀ (h : Host), Inv' env h → (∀ f, Act.send f ∈ acts → Fits f) → ∀ r, h.run env acts = some r →
    ((h.closed = true ∨ Act.close ∈ acts) ∧ r = .panic) ∨
      ∃ h', r = .ok h' ∧ Inv' env h' ∧
        ((∀ l, env.react l = []) → (h.receiver = .range ∨ h.receiver = .handle [] ∨ h.receiver = .done) →
          h'.sent = h.sent ++ sends acts) := by
  induction acts with
  | nil => intro h hi _ r hr; cases hr; exact Or.inr ⟨h, rfl, hi, fun _ _ => by simp [sends]⟩
  | cons a as ih =>
    intro h hi hs r hr
    rw [Host.run] at hr
    cases hst : h.step env a with
    | none => rw [hst] at hr; cases hr
    | some r' =>
      rcases step_inv hi hre (fun f hf => hs f (by simp [hf])) hst with ⟨h1, rfl⟩ | ⟨h', rfl, h2, h3, h4⟩
      · rw [hst] at hr; cases hr; exact Or.inl ⟨Or.inl h1, rfl⟩
      · rw [hst] at hr
        rcases ih h' h2 (fun f hf => hs f (by simp [hf])) r hr with ⟨h5, h6⟩ | ⟨h'', h5, h6, h7⟩
        · refine Or.inl ⟨?_, h6⟩
          rcases h5 with h5 | h5
          · rcases h3 h5 with h8 | h8
            · exact Or.inl h8
            · exact Or.inr (by simp [h8])
          · exact Or.inr (by simp [h5])
        · refine Or.inr ⟨h'', h5, h6, fun h0 hr0 => ?_⟩
          obtain ⟨h8, h9⟩ := h4 h0 hr0
          rw [h7 h0 h8, h9, List.append_assoc, ← sends_cons]

theorem inv'_init (env : Env) : Inv' env Host.init := ⟨⟨[], [], inv_init⟩, by simp [Host.init]⟩

/-! ## C44 -/

/-- **C44** At any time of any run (any interleaving of sending goroutines, the two loops, and any behaviour of
guest and handlers), what the guest has cut out of its buffer over all calls are the frames sent so far, in
this order, up to the ones still queued or in the buffer (`waiting`); each decodes to the frame that was sent
(as decoding defines it, C02), no call made the guest trap, and none is waiting once the loop is idle. -/
theorem guest_receives_sent (env : Env) (acts : List Act) (ha : AllFit env acts) (h : Host)
    (hr : Host.init.run env acts = some (.ok h)) :
    ∃ got waiting, h.sent = got ++ waiting ∧
      (h.batches.flatMap Prod.fst).map decodeFrame = got.map (fun f => .ok (received f)) ∧
      (∀ b ∈ h.batches, b.2 = true) ∧
      (h.sender = .range → h.sendQ = [] → waiting = []) := by
  rcases run_inv ha.react acts _ (inv'_init env) ha.sends _ hr with ⟨_, h1⟩ | ⟨h', h1, ⟨⟨got, pend, hi⟩, _⟩, _⟩
  · cases h1
  · cases h1
    refine ⟨got, _, hi.sent, ?_, hi.whole, ?_⟩
    · rw [hi.batches, List.map_map]
      apply List.map_congr_left
      intro f hf
      exact decode_image (hi.fits f (by rw [hi.sent]; simp [hf])).1
    · intro h1 h2
      rw [(hi.empty (Or.inl h1)).1, h1, h2]; rfl

/-- **C44** The frames sent are those handed over by `send` steps, in this order, when the host's stream handlers send
none of their own. -/
theorem sent_in_order (env : Env) (acts : List Act) (ha : AllFit env acts) (hq : ∀ l, env.react l = []) (h : Host)
    (hr : Host.init.run env acts = some (.ok h)) : h.sent = sends acts := by
  rcases run_inv ha.react acts _ (inv'_init env) ha.sends _ hr with ⟨_, h1⟩ | ⟨h', h1, _, h2⟩
  · cases h1
  · cases h1; rw [h2 hq (Or.inl rfl)]; rfl

/-- **C44** Nothing crashes the host as long as the instance is not closed. -/
theorem open_never_panics (env : Env) (acts : List Act) (ha : AllFit env acts) (hc : Act.close ∉ acts) (r : Res Host)
    (hr : Host.init.run env acts = some r) : ∃ h, r = .ok h := by
  rcases run_inv ha.react acts _ (inv'_init env) ha.sends _ hr with ⟨h1, _⟩ | ⟨h', h1, _⟩
  · rcases h1 with h1 | h1
    · cases h1
    · exact absurd h1 hc
  · exact ⟨h', h1⟩

/-- Two frames queued before the loop gets to run reach the guest in one call. -/
def batchDemo : List Act :=
  [.send (.requestN ⟨1, 5⟩), .send (.payload ⟨3, [1], [2, 3], false, true, true⟩), .sender, .sender, .sender,
    .sender, .sender, .sender]

def quiet : Env := ⟨fun _ => [], fun _ => []⟩

example : AllFit quiet batchDemo := by
  constructor
  · intro l f hf; cases hf
  · intro f hf
    simp only [batchDemo, List.mem_cons, Act.send.injEq, reduceCtorEq, List.not_mem_nil, or_false] at hf
    rcases hf with rfl | rfl <;> decide

/-- What is seen at the end of a run: where the sending loop is, the queue, and the frames of each call. -/
def seenBy (r : Option (Res Host)) : Option (Sender × List Frame × List (List (Option Frame))) :=
  match r with
  | some (.ok h) => some (h.sender, h.sendQ, h.batches.map fun b => b.1.map fun raw =>
      match decodeFrame raw with
      | .ok f => some f
      | _ => none)
  | _ => none

example : seenBy (Host.init.run quiet batchDemo) = some (.range, [],
    [[some (.requestN ⟨1, 5⟩), some (.payload ⟨3, [1], [2, 3], false, true, true⟩)]]) := by decide +kernel

/-! ## C47 -/

/-- One of the loops takes a step. -/
def LoopStep (env : Env) (h h' : Host) : Prop :=
  h.sendStep env = some (.ok h') ∨ h.recvStep env = some (.ok h')

/-- Nothing is left to do. -/
def Idle (h : Host) : Prop := h.sender = .range ∧ h.sendQ = [] ∧ h.receiver = .range ∧ h.recvQ = []

/-- The receiving loop is not about to send. -/
def NotSending (h : Host) : Prop := h.receiver = .range ∨ h.receiver = .handle [] ∨ h.receiver = .done

theorem put_receiver {x x' : Host} {f : Frame} (hx : x.put f = .ok x') :
    x' = { x with mem := x'.mem, pos := x'.pos, sender := .sel } := by
  simp only [Host.put] at hx
  cases he : encodeAt x.mem x.pos f <;> rw [he] at hx <;> cases hx; rfl

/-- A step of the sending loop leaves the receiving loop where it is. -/
theorem sendStep_receiver {env : Env} {h h' : Host} (hr : h.sendStep env = some (.ok h')) :
    h'.receiver = h.receiver ∧ h'.closed = h.closed ∧ h'.handled = h.handled := by
  simp only [Host.sendStep] at hr
  split at hr <;> (try split at hr) <;> (try split at hr) <;> (try split at hr) <;> (try cases hr) <;>
    (try exact ⟨rfl, rfl, rfl⟩)
  · rw [put_receiver (Option.some.inj hr)]; exact ⟨rfl, rfl, rfl⟩
  · rw [put_receiver (Option.some.inj hr)]; exact ⟨rfl, rfl, rfl⟩

theorem recvStep_quiet {env : Env} (hq : ∀ l, env.react l = []) {h h' : Host} (hn : NotSending h)
    (hr : h.recvStep env = some (.ok h')) : NotSending h' ∧ h'.sender = h.sender ∧ h'.sendQ = h.sendQ ∧
      h'.closed = h.closed := by
  simp only [Host.recvStep] at hr
  rcases hn with hn | hn | hn <;> simp only [hn] at hr
  · split at hr
    · cases hr; exact ⟨Or.inr (Or.inl (by simp [hq])), rfl, rfl, rfl⟩
    · split at hr <;> cases hr
      exact ⟨Or.inr (Or.inr rfl), rfl, rfl, rfl⟩
  · cases hr; exact ⟨Or.inl rfl, rfl, rfl, rfl⟩
  · cases hr

theorem step_notSending {env : Env} (hq : ∀ l, env.react l = []) {h h' : Host} (hn : NotSending h) {a : Act}
    (hr : h.step env a = some (.ok h')) : NotSending h' := by
  cases a with
  | send f =>
    simp only [Host.step, Host.sendFrame] at hr
    split at hr
    · cases hr
    · split at hr <;> cases hr; exact hn
  | close =>
    simp only [Host.step, Host.close] at hr
    split at hr <;> cases hr; exact hn
  | sender => have := (sendStep_receiver hr).1; simp only [NotSending, this]; exact hn
  | receiver => exact (recvStep_quiet hq hn hr).1

theorem run_notSending {env : Env} (hq : ∀ l, env.react l = []) (acts : List Act) : ∀ (h h' : Host),
    NotSending h → h.run env acts = some (.ok h') → NotSending h' := by
  induction acts with
  | nil => intro h h' hn hr; cases hr; exact hn
  | cons a as ih =>
    intro h h' hn hr
    rw [Host.run] at hr
    split at hr
    · cases hr
    · exact ih _ _ (step_notSending hq hn (by assumption)) hr
    · cases hr
    · cases hr

/-- Work left for the sending loop, in units that go down with each of its steps outside of guest calls. -/
def work : Sender → Nat
  | .range => 0
  | .call _ none => 1
  | .sel => 2
  | .call _ (some _) => 3
  | .write _ => 4
  | .done => 0

def outs : Sender → Nat
  | .call l _ => l.length
  | _ => 0

def backlog (h : Host) : Nat := 2 * h.recvQ.length + match h.receiver with
  | .handle _ => 1
  | _ => 0

/-- Frames to be sent, then buffers the guest still hands over, then buffers to be handled. -/
def Smaller (a b : Host) : Prop :=
  5 * a.sendQ.length + work a.sender < 5 * b.sendQ.length + work b.sender ∨
  (5 * a.sendQ.length + work a.sender = 5 * b.sendQ.length + work b.sender ∧
    (outs a.sender < outs b.sender ∨ (outs a.sender = outs b.sender ∧ backlog a < backlog b)))

theorem smaller_wf : WellFounded Smaller := by
  have : WellFounded (Prod.Lex (· < ·) (Prod.Lex (· < ·) (· < ·)) : Nat × Nat × Nat → Nat × Nat × Nat → Prop) :=
    (Prod.lex ⟨_, Nat.lt_wfRel.wf⟩ (Prod.lex ⟨_, Nat.lt_wfRel.wf⟩ ⟨_, Nat.lt_wfRel.wf⟩)).wf
  refine Subrelation.wf ?_ (InvImage.wf
    (fun h : Host => (5 * h.sendQ.length + work h.sender, outs h.sender, backlog h)) this)
  intro a b hab
  show Prod.Lex _ _ _ _
  rcases hab with h | ⟨h, h2 | ⟨h2, h3⟩⟩
  · exact Prod.Lex.left _ _ h
  · simp only [h]; exact Prod.Lex.right _ (Prod.Lex.left _ _ h2)
  · simp only [h, h2]; exact Prod.Lex.right _ (Prod.Lex.right _ h3)

theorem sendStep_smaller {env : Env} {h h' : Host} (ho : h.closed = false) (hr : h.sendStep env = some (.ok h')) :
    Smaller h' h := by
  simp only [Host.sendStep] at hr
  cases hs : h.sender with
  | range =>
    simp only [hs] at hr
    cases hq : h.sendQ with
    | nil => simp only [hq, ho, Bool.false_eq_true, if_false] at hr; cases hr
    | cons f q => simp only [hq] at hr; cases hr; left; simp [hq, hs, work]; omega
  | sel =>
    simp only [hs] at hr
    cases hq : h.sendQ with
    | nil =>
      simp only [hq, ho, Bool.false_eq_true, if_false] at hr
      split at hr <;> cases hr <;> left <;> simp [Host.callGuest, hq, hs, work]
    | cons f q => simp only [hq] at hr; cases hr; left; simp [hq, hs, work]; omega
  | write f =>
    simp only [hs] at hr
    split at hr
    · cases hr; left; simp [Host.callGuest, hs, work]
    · rw [put_receiver (Option.some.inj hr)]; left; simp [hs, work]
  | call l nx =>
    simp only [hs] at hr
    cases l with
    | cons o l =>
      simp only [ho, Bool.false_eq_true, if_false] at hr
      split at hr
      · cases hr; right; refine ⟨?_, Or.inl ?_⟩
        · cases nx <;> simp [hs, work]
        · simp [hs, outs]
      · cases hr
    | nil =>
      cases nx with
      | none => simp only at hr; cases hr; left; simp [hs, work]
      | some f =>
        simp only at hr
        rw [put_receiver (Option.some.inj hr)]; left; simp [hs, work]
  | done => simp only [hs] at hr; cases hr

theorem recvStep_smaller {env : Env} (hq : ∀ l, env.react l = []) {h h' : Host} (hn : NotSending h)
    (ho : h.closed = false) (hr : h.recvStep env = some (.ok h')) : Smaller h' h := by
  simp only [Host.recvStep] at hr
  rcases hn with hn | hn | hn <;> simp only [hn] at hr
  · split at hr
    · rename_i o q he
      cases hr; right
      refine ⟨rfl, Or.inr ⟨rfl, ?_⟩⟩
      simp [backlog, he, hn]; omega
    · simp [ho] at hr
  · cases hr; right
    refine ⟨rfl, Or.inr ⟨rfl, ?_⟩⟩
    simp [backlog, hn]
  · cases hr

theorem step_notDone {env : Env} {h h' : Host} {a : Act} (hr : h.step env a = some (.ok h'))
    (hd : h.closed = false → h.sender ≠ .done ∧ h.receiver ≠ .done) :
    h'.closed = false → h'.sender ≠ .done ∧ h'.receiver ≠ .done := by
  cases a with
  | send f =>
    simp only [Host.step, Host.sendFrame] at hr
    split at hr
    · cases hr
    · split at hr <;> cases hr; exact hd
  | close => simp only [Host.step, Host.close] at hr; split at hr <;> cases hr; intro h; cases h
  | sender =>
    have h3 := sendStep_receiver hr
    intro hc
    rw [h3.2.1] at hc
    refine ⟨?_, by rw [h3.1]; exact (hd hc).2⟩
    simp only [Host.step, Host.sendStep] at hr
    split at hr <;> (try split at hr) <;> (try split at hr) <;> (try split at hr) <;> (try cases hr) <;>
      (first
        | (intro h; cases h; done)
        | skip)
    · rename_i hcl; rw [hc] at hcl; cases hcl
    · rw [put_receiver (Option.some.inj hr)]; exact fun h => nomatch h
    · rw [put_receiver (Option.some.inj hr)]; exact fun h => nomatch h
  | receiver =>
    simp only [Host.step, Host.recvStep] at hr
    split at hr
    · split at hr
      · cases hr; intro hc; exact ⟨(hd hc).1, (fun h => nomatch h)⟩
      · split at hr <;> cases hr
        rename_i hcl; intro hc; rw [show h.closed = false from hc] at hcl; cases hcl
    · rename_i f fs hrc
      cases hs : h.sendFrame f with
      | none => rw [hs] at hr; cases hr
      | some r =>
        rw [hs] at hr
        simp only [Host.sendFrame] at hs
        split at hs
        · cases hs; cases hr
        · split at hs <;> cases hs
          cases hr
          intro hc; exact ⟨(hd hc).1, (fun h => nomatch h)⟩
    · cases hr; intro hc; exact ⟨(hd hc).1, (fun h => nomatch h)⟩
    · cases hr

theorem run_notDone {env : Env} (acts : List Act) : ∀ (h h' : Host),
    (h.closed = false → h.sender ≠ .done ∧ h.receiver ≠ .done) → h.run env acts = some (.ok h') →
    h'.closed = false → h'.sender ≠ .done ∧ h'.receiver ≠ .done := by
  induction acts with
  | nil => intro h h' hn hr; cases hr; exact hn
  | cons a as ih =>
    intro h h' hn hr
    rw [Host.run] at hr
    split at hr
    · cases hr
    · exact ih _ _ (step_notDone (by assumption) hn) hr
    · cases hr
    · cases hr

/-- **C47**, part of the claim: when stream handlers do not themselves send frames from the receiving loop, the
two loops never wait for each other. At any time of any run before closing, one of them can go on unless there
is nothing left to do. Missing: handlers that send (see `loops_deadlock_refuted`). -/
theorem loops_go_on_partial (env : Env) (hq : ∀ l, env.react l = []) (acts : List Act) (h : Host)
    (hr : Host.init.run env acts = some (.ok h)) (ho : h.closed = false) :
    Idle h ∨ (∃ r, h.sendStep env = some r) ∨ ∃ r, h.recvStep env = some r := by
  have hn := run_notSending hq acts _ _ (Or.inl rfl) hr
  obtain ⟨hd2, hd⟩ := run_notDone acts Host.init _ (fun _ => ⟨(fun h => nomatch h), (fun h => nomatch h)⟩) hr ho
  rcases hn with hn | hn | hn
  · cases hrq : h.recvQ with
    | cons o q => right; right; simp only [Host.recvStep, hn, hrq]; exact ⟨_, rfl⟩
    | nil =>
      have hcap : h.recvQ.length < queueCap := by rw [hrq]; decide
      cases hs : h.sender with
      | range =>
        cases hsq : h.sendQ with
        | nil => exact Or.inl ⟨hs, hsq, hn, hrq⟩
        | cons f q => right; left; simp only [Host.sendStep, hs, hsq]; exact ⟨_, rfl⟩
      | sel =>
        right; left; simp only [Host.sendStep, hs]
        cases hsq : h.sendQ with
        | nil => simp only [ho, Bool.false_eq_true, if_false]; split <;> exact ⟨_, rfl⟩
        | cons f q => exact ⟨_, rfl⟩
      | write f => right; left; simp only [Host.sendStep, hs]; split <;> exact ⟨_, rfl⟩
      | call l nx =>
        right; left; simp only [Host.sendStep, hs]
        cases l with
        | cons o l => simp only [ho, Bool.false_eq_true, if_false, hcap, if_true]; exact ⟨_, rfl⟩
        | nil => cases nx <;> exact ⟨_, rfl⟩
      | done => exact absurd hs hd2
  · right; right; simp only [Host.recvStep, hn]; exact ⟨_, rfl⟩
  · exact absurd hn hd

/-- **C47**, part of the claim: nor do the loops go on for ever without anything new being sent. With
`loops_go_on_partial`, they come to rest with nothing left to do. -/
theorem loops_come_to_rest_partial (env : Env) (hq : ∀ l, env.react l = []) (acts : List Act) (h : Host)
    (hr : Host.init.run env acts = some (.ok h)) (ho : h.closed = false) :
    ¬ ∃ s : Nat → Host, s 0 = h ∧ ∀ n, LoopStep env (s n) (s (n + 1)) := by
  have hn := run_notSending hq acts _ _ (Or.inl rfl) hr
  intro ⟨s, h0, hs⟩
  have key : ∀ x : Host, NotSending x → x.closed = false → ∀ n, s n ≠ x := by
    intro x
    induction x using smaller_wf.induction with
    | _ x ih =>
      intro hnx hcx n hx
      subst hx
      rcases hs n with h1 | h1
      · exact ih _ (sendStep_smaller hcx h1) (by have := (sendStep_receiver h1).1; simp only [NotSending, this]; exact hnx)
          (by rw [(sendStep_receiver h1).2.1]; exact hcx) (n + 1) rfl
      · have h2 := recvStep_quiet hq hnx h1
        exact ih _ (recvStep_smaller hq hnx hcx h1) h2.1 (by rw [h2.2.2.2]; exact hcx) (n + 1) rfl
  exact key h hn ho 0 h0

/-- A guest that sends a hundred and two buffers when it is called, and a host that asks for one more element
for each of them, as a subscriber with a demand of one does. -/
def chatty : Env := ⟨fun _ => List.replicate 102 (image (.payload ⟨2, [], [7], false, false, true⟩)),
  fun _ => [.requestN ⟨2, 1⟩]⟩

/-- The guest has filled the receive queue, one element is being handled, and other goroutines have filled the
send queue. -/
def jam : List Act :=
  [.send (.requestN ⟨2, 102⟩), .sender, .sender, .sender] ++ List.replicate 100 .sender ++ [.receiver, .sender] ++
    List.replicate 100 (.send (.cancel ⟨4⟩))

def jammed (r : Option (Res Host)) : Bool :=
  match r with
  | some (.ok h) => h.sendQ.length == 100 && h.recvQ.length == 100 && !h.closed &&
      (match h.sender with
        | .call (_ :: _) _ => true
        | _ => false) &&
      (match h.receiver with
        | .handle (_ :: _) => true
        | _ => false)
  | _ => false

theorem jammed_stuck {env : Env} {r : Option (Res Host)} (h : jammed r = true) :
    ∃ x, r = some (.ok x) ∧ x.closed = false ∧ (∀ a, a ≠ .close → x.step env a = none) ∧
      (∃ o l n, x.sender = .call (o :: l) n) ∧ ∃ f fs, x.receiver = .handle (f :: fs) := by
  unfold jammed at h
  split at h
  · rename_i x
    simp only [Bool.and_eq_true, beq_iff_eq, Bool.not_eq_true'] at h
    obtain ⟨⟨⟨⟨h1, h2⟩, h3⟩, h4⟩, h5⟩ := h
    split at h4
    · rename_i o l n hs
      split at h5
      · rename_i f fs hrc
        refine ⟨x, rfl, h3, ?_, ⟨o, l, n, hs⟩, f, fs, hrc⟩
        have hc1 : ¬ x.sendQ.length < queueCap := by rw [h1]; decide
        have hc2 : ¬ x.recvQ.length < queueCap := by rw [h2]; decide
        intro a ha
        cases a with
        | send g => simp [Host.step, Host.sendFrame, h3, hc1]
        | close => exact absurd rfl ha
        | sender => simp [Host.step, Host.sendStep, hs, h3, hc2]
        | receiver => simp [Host.step, Host.recvStep, hrc, Host.sendFrame, h3, hc1]
      · cases h5
    · cases h4
  · cases h

/-- **C47** is false: in this run the sending loop waits in a guest call for room in the receive queue, and the
receiving loop waits in a stream handler for room in the send queue. Nothing but closing the instance can
happen any more, although neither loop is done. -/
theorem loops_deadlock_refuted : ∃ (env : Env) (acts : List Act) (h : Host), AllFit env acts ∧
    Host.init.run env acts = some (.ok h) ∧ h.closed = false ∧
    (∀ a, a ≠ .close → h.step env a = none) ∧
    (∃ o l n, h.sender = .call (o :: l) n) ∧ ∃ f fs, h.receiver = .handle (f :: fs) := by
  have hj : jammed (Host.init.run chatty jam) = true := by decide +kernel
  obtain ⟨x, h1, h2, h3, h4, h5⟩ := jammed_stuck (env := chatty) hj
  refine ⟨chatty, jam, x, ⟨?_, ?_⟩, h1, h2, h3, h4, h5⟩
  · intro l f hf; simp only [chatty, List.mem_singleton] at hf; subst hf; decide
  · intro f hf
    simp only [jam, List.mem_append, List.mem_cons, List.mem_replicate, Act.send.injEq, reduceCtorEq,
      List.not_mem_nil, or_false, false_or, and_false] at hf
    rcases hf with rfl | ⟨_, rfl⟩ <;> decide

/-! ## C46 -/

/-- The sending loop is in the middle of something. -/
def Busy (h : Host) : Prop := h.sendQ ≠ [] ∨ (h.sender ≠ .range ∧ h.sender ≠ .call [] none)

theorem run_cons_ok {env : Env} {h h' : Host} {a : Act} {as : List Act} (hs : h.step env a = some (.ok h')) :
    h.run env (a :: as) = h'.run env as := by rw [Host.run, hs]

theorem run_cons_panic {env : Env} {h : Host} {a : Act} {as : List Act} (hs : h.step env a = some .panic) :
    h.run env (a :: as) = some .panic := by rw [Host.run, hs]

/-- One step of the sending loop of a closed instance, if it was busy: it panics, or is still busy and has less to do. -/
theorem closed_busy_step {env : Env} {h : Host} {got pend : List Frame} (hi : Inv h got pend) (hc : h.closed = true)
    (hb : Busy h) (hd : h.sender ≠ .done) : h.sendStep env = some .panic ∨
      ∃ h', h.sendStep env = some (.ok h') ∧ Busy h' ∧ h'.sender ≠ .done ∧ h'.closed = true ∧
        5 * h'.sendQ.length + work h'.sender < 5 * h.sendQ.length + work h.sender := by
  cases hs : h.sender with
  | range =>
    cases hq : h.sendQ with
    | nil => rcases hb with hb | ⟨hb, _⟩
             · exact absurd hq hb
             · exact absurd hs hb
    | cons f q =>
      right; refine ⟨{ h with sendQ := q, sender := .write f }, ?_, Or.inr ⟨by simp, by simp⟩, by simp, hc, ?_⟩
      · simp only [Host.sendStep, hs, hq]
      · simp [work]; omega
  | sel =>
    cases hq : h.sendQ with
    | nil => left; simp only [Host.sendStep, hs, hq, hc, if_true]
    | cons f q =>
      right; refine ⟨{ h with sendQ := q, sender := .write f }, ?_, Or.inr ⟨by simp, by simp⟩, by simp, hc, ?_⟩
      · simp only [Host.sendStep, hs, hq]
      · simp [work]; omega
  | write f =>
    right
    rcases hr : h.sendStep env with _ | r
    · simp only [Host.sendStep, hs] at hr; split at hr <;> cases hr
    · rcases sendStep_inv hi hr with ⟨_, rfl⟩ | ⟨h', g, p, rfl, hi', _, hc'⟩
      · simp only [Host.sendStep, hs] at hr
        split at hr
        · cases hr
        · exact absurd (Option.some.inj hr) (by
            have hf : Fits f := hi.fits f (by rw [hi.sent, hs]; simp [inHand])
            have hp : h.pos + 3 + f.size ≤ sendSize := by
              rename_i hfull
              have h1 := hi.pos; have h2 := hf.2
              have s16 : sendSize = 16384 := rfl
              have : u32len (h.pos + 3 + f.size) = h.pos + 3 + f.size := by unfold u32len; omega
              simp [full, this] at hfull; omega
            obtain ⟨h', e1, _⟩ := put_ok hi.len hf hp (hi.buffer (Or.inr (Or.inl ⟨f, hs⟩)))
            rw [e1]; exact fun h => nomatch h)
      · refine ⟨h', rfl, ?_⟩
        have hfin : (h'.sender = .sel ∨ ∃ o, h'.sender = .call o (some f)) ∧ h'.sendQ = h.sendQ := by
          simp only [Host.sendStep, hs] at hr
          split at hr
          · cases hr; exact ⟨Or.inr ⟨_, rfl⟩, rfl⟩
          · rw [put_receiver (Option.some.inj hr)]; exact ⟨Or.inl rfl, rfl⟩
        rcases hfin with ⟨h1 | ⟨o, h1⟩, h2⟩
        · exact ⟨Or.inr (by simp [h1]), by simp [h1], by rw [hc', hc], by simp [h1, h2, work]⟩
        · exact ⟨Or.inr (by simp [h1]), by simp [h1], by rw [hc', hc], by simp [h1, h2, work]⟩
  | call l nx =>
    cases l with
    | cons o l => left; simp only [Host.sendStep, hs, hc, if_true]
    | nil =>
      right
      cases nx with
      | none =>
        have hq : h.sendQ ≠ [] := by
          rcases hb with hb | ⟨_, hb⟩
          · exact hb
          · exact absurd hs hb
        refine ⟨{ h with pos := 0, sender := .range }, ?_, Or.inl hq, by simp, hc, ?_⟩
        · simp only [Host.sendStep, hs]
        · simp [work]
      | some f =>
        have hf : Fits f := hi.fits f (by rw [hi.sent, hs]; simp [inHand])
        obtain ⟨h', e1, e2, _⟩ := put_ok (h := { h with pos := 0 }) hi.len hf
          (by have := hf.2; show 0 + 3 + f.size ≤ 16384; omega) (pend := []) ⟨rfl, rfl⟩
        have hsd : h'.sender = .sel := by rw [e2]
        have hcl : h'.closed = true := by rw [e2]; exact hc
        have hsq : h'.sendQ = h.sendQ := by rw [e2]
        refine ⟨h', ?_, Or.inr (by simp [hsd]), by simp [hsd], hcl, by simp [hsd, hsq, work]⟩
        simp only [Host.sendStep, hs]; exact congrArg some e1
  | done => exact absurd hs hd

theorem closed_busy_crashes {env : Env} (n : Nat) : ∀ {h : Host} {got pend : List Frame}, Inv h got pend →
    h.closed = true → Busy h → h.sender ≠ .done → 5 * h.sendQ.length + work h.sender < n →
    ∃ k, h.run env (List.replicate k .sender) = some .panic := by
  induction n with
  | zero => intro h got pend hi hc hb hd hn; omega
  | succ n ih =>
    intro h got pend hi hc hb hd hn
    rcases closed_busy_step (env := env) hi hc hb hd with hp | ⟨h', h1, h2, h3, h4, h5⟩
    · exact ⟨1, run_cons_panic hp⟩
    · rcases sendStep_inv hi h1 with ⟨_, h6⟩ | ⟨h'', g, p, h6, hi', _, _⟩
      · cases h6
      · cases h6
        obtain ⟨k, hk⟩ := ih hi' h4 h2 h3 (by omega)
        exact ⟨k + 1, by rw [List.replicate_succ, run_cons_ok (show h.step env .sender = some (.ok h') from h1), hk]⟩

/-- Nothing is being sent. -/
def Rest (h : Host) : Prop :=
  h.sendQ = [] ∧ (h.sender = .range ∨ h.sender = .call [] none ∨ h.sender = .done)

theorem rest_step {env : Env} {h : Host} (hc : h.closed = true) (hb : Rest h) {r : Res Host}
    (hr : h.sendStep env = some r) : ∃ h', r = .ok h' ∧ Rest h' ∧ h'.closed = true ∧ h'.receiver = h.receiver := by
  obtain ⟨hq, hb | hb | hb⟩ := hb <;> simp only [Host.sendStep, hb, hq, hc, if_true] at hr <;> cases hr
  · exact ⟨_, rfl, ⟨rfl, Or.inr (Or.inr rfl)⟩, rfl, rfl⟩
  · exact ⟨_, rfl, ⟨rfl, Or.inl rfl⟩, rfl, rfl⟩

/-- **C46**, the exact extent for the sending loop: after closing at any time of any run (of frames that fit),
the loop runs into the crash just in case a frame was queued or being sent, or the guest was being called. -/
theorem close_crashes_iff (env : Env) (acts : List Act) (ha : AllFit env acts) (h h' : Host)
    (hr : Host.init.run env acts = some (.ok h)) (ho : h.close = .ok h') (hd : h.sender ≠ .done) :
    (∃ n, h'.run env (List.replicate n .sender) = some .panic) ↔ Busy h := by
  rcases run_inv ha.react acts _ (inv'_init env) ha.sends _ hr with ⟨_, h1⟩ | ⟨x, h1, ⟨⟨got, pend, hi⟩, _⟩, _⟩
  · cases h1
  cases h1
  have hh' : h' = { h with closed := true } := by
    simp only [Host.close] at ho; split at ho <;> cases ho; rfl
  subst hh'
  constructor
  · intro ⟨n, hn⟩
    rcases Classical.em (Busy h) with hb | hb
    · exact hb
    · exfalso
      have hrest : Rest ({ h with closed := true } : Host) := by
        have : h.sendQ = [] := Classical.byContradiction fun h => hb (Or.inl h)
        refine ⟨this, ?_⟩
        rcases Classical.em (h.sender = .range) with h1 | h1
        · exact Or.inl h1
        · rcases Classical.em (h.sender = .call [] none) with h2 | h2
          · exact Or.inr (Or.inl h2)
          · exact absurd (Or.inr ⟨h1, h2⟩) hb
      have : ∀ n (y : Host), Rest y → y.closed = true → y.run env (List.replicate n .sender) ≠ some .panic := by
        intro n
        induction n with
        | zero => intro y _ _ h; cases h
        | succ n ih =>
          intro y hy hc h
          rw [List.replicate_succ, Host.run] at h
          cases hst : y.step env .sender with
          | none => rw [hst] at h; cases h
          | some r =>
            obtain ⟨y', rfl, h1, h2, _⟩ := rest_step hc hy hst
            rw [hst] at h
            exact ih y' h1 h2 h
      exact this n _ hrest rfl hn
  · intro hb
    exact closed_busy_crashes _ (inv_recv hi h.recvQ h.handled h.receiver true) rfl hb hd (Nat.lt_succ_self _)

/-- Nobody uses the instance any more. -/
def LoopsOnly (acts : List Act) : Prop := ∀ a ∈ acts, a = .sender ∨ a = .receiver

/-- **C46**, part of the claim: closing an instance that is not in use, of which every frame has been sent, is
safe: with stream handlers that do not send, however the loops go on they do not crash. Missing: instances in use
(see `close_crashes_iff` and below). -/
theorem close_unused_safe_partial (env : Env) (hq : ∀ l, env.react l = []) (acts : List Act) (h : Host)
    (hr : Host.init.run env acts = some (.ok h)) (ho : h.closed = false) (hb : ¬ Busy h) (after : List Act)
    (ha : LoopsOnly after) (r : Res Host) (hrun : h.run env (.close :: after) = some r) : ∃ h', r = .ok h' := by
  have hn := run_notSending hq acts _ _ (Or.inl rfl) hr
  have hcl : h.step env .close = some (.ok { h with closed := true }) := by
    simp [Host.step, Host.close, ho]
  rw [run_cons_ok hcl] at hrun
  have hrest : Rest ({ h with closed := true } : Host) := by
    have : h.sendQ = [] := Classical.byContradiction fun h => hb (Or.inl h)
    refine ⟨this, ?_⟩
    rcases Classical.em (h.sender = .range) with h1 | h1
    · exact Or.inl h1
    · rcases Classical.em (h.sender = .call [] none) with h2 | h2
      · exact Or.inr (Or.inl h2)
      · exact absurd (Or.inr ⟨h1, h2⟩) hb
  have hn' : NotSending ({ h with closed := true } : Host) := hn
  have hc' : ({ h with closed := true } : Host).closed = true := rfl
  generalize ({ h with closed := true } : Host) = y at hrest hn' hc' hrun
  clear hr ho hb hn hcl
  induction after generalizing y with
  | nil => cases hrun; exact ⟨_, rfl⟩
  | cons a as ih =>
    rw [Host.run] at hrun
    cases hst : y.step env a with
    | none => rw [hst] at hrun; cases hrun
    | some r' =>
      rw [hst] at hrun
      rcases ha a (by simp) with rfl | rfl
      · obtain ⟨y', rfl, h1, h2, h3⟩ := rest_step hc' hrest hst
        exact ih (fun b hb => ha b (by simp [hb])) y' h1 (by simp only [NotSending, h3]; exact hn') h2 hrun
      · have hok : ∃ y', r' = .ok y' := by
          simp only [Host.step, Host.recvStep] at hst
          rcases hn' with hn' | hn' | hn' <;> simp only [hn'] at hst
          · split at hst
            · cases hst; exact ⟨_, rfl⟩
            · rw [if_pos hc'] at hst; cases hst; exact ⟨_, rfl⟩
          · cases hst; exact ⟨_, rfl⟩
          · cases hst
        obtain ⟨y', rfl⟩ := hok
        obtain ⟨h1, h2, h3, h4⟩ := recvStep_quiet hq hn' hst
        exact ih (fun b hb => ha b (by simp [hb])) y' ⟨by rw [h3]; exact hrest.1, by rw [h2]; exact hrest.2⟩ h1 (by rw [h4]; exact hc') hrun

example : ∃ h, Host.init.run quiet batchDemo = some (.ok h) ∧ h.closed = false ∧ ¬ Busy h := by
  have : (match Host.init.run quiet batchDemo with
    | some (.ok h) => !h.closed && decide (h.sendQ = []) && decide (h.sender = .range)
    | _ => false) = true := by decide +kernel
  split at this
  · rename_i h he
    simp only [Bool.and_eq_true, Bool.not_eq_true', decide_eq_true_eq] at this
    refine ⟨h, he, this.1.1, ?_⟩
    rintro (h1 | ⟨h1, _⟩)
    · exact h1 this.1.2
    · exact h1 this.2
  · cases this

/-- **C46** is false: an instance is closed with a frame in the queue; the sending loop takes it, finds the
channel closed and empty, and calls a method of the nil frame it got. -/
theorem close_while_sending_refuted :
    Host.init.run quiet [.send (.cancel ⟨2⟩), .close, .sender, .sender, .sender] = some .panic := by
  have h : (match Host.init.run quiet [.send (.cancel ⟨2⟩), .close, .sender, .sender, .sender] with
    | some .panic => true
    | _ => false) = true := by decide +kernel
  generalize Host.init.run quiet [.send (.cancel ⟨2⟩), .close, .sender, .sender, .sender] = r at h
  rcases r with _ | ⟨_ | _ | _⟩
  · cases h
  · cases h
  · cases h
  · rfl

/-- **C46** is false: any goroutine that sends a frame (a response to the guest, say) after closing crashes the host. -/
theorem send_after_close_refuted (env : Env) (f : Frame) : Host.init.run env [.close, .send f] = some .panic := rfl

end Iota.Props.Wasm
